{"id": "C01", "title": "Built requests return exactly the arguments put in", "statement": "If a RequestBuilder is created for any command that takes arguments (with or without a key type) and any at most 255 non-empty byte arguments are added with bytes(), every call succeeds and the finished Request reports that command, that key type, arg_count equal to the number of arguments, arg(i) equal to the i-th argument byte for byte, arg(i)=None past the end, args(a..) equal to the arguments from a on (None if there are no arguments), and key() equal to the first argument exactly when the command takes a key. Stats takes no arguments; an argument given to it cannot be read back.", "quantifier": "every command, every optional key type, every list of at most 255 non-empty byte strings of any length", "why_tests_cant": "positions are computed incrementally from previous lengths; an off-by-one shows only for particular combinations of key type, argument index and argument length", "anchors": ["engine/src/command/request/builder.rs: RequestBuilder::new", "engine/src/command/request/builder.rs: RequestBuilder::new_with_key_type", "engine/src/command/request/builder.rs: RequestBuilder::bytes", "engine/src/command/request/builder.rs: RequestBuilder::into_request", "engine/src/command/request/builder.rs: RequestBuilder::push_argument", "engine/src/command/request/mod.rs: Request::arg", "engine/src/command/request/mod.rs: Request::args", "engine/src/command/request/mod.rs: Request::arg_count", "engine/src/command/request/mod.rs: Request::key", "engine/src/command/request/mod.rs: Request::key_type", "engine/src/command/request/mod.rs: Request::command_id"]}
{"id": "C02", "title": "Request bytes are an unambiguous encoding", "statement": "The bytes of a built request are: command byte (high bit set iff a key type is given), key-type byte if any, argument count, then each argument as 4-byte big-endian length plus data; and two built requests of non-simple commands with the same bytes have the same command, the same key type and the same arguments.", "quantifier": "every pair of commands, key types and argument lists (at most 255 arguments, each shorter than 2^32 bytes)", "why_tests_cant": "unambiguity is a statement about all pairs of requests", "anchors": ["engine/src/command/request/builder.rs: RequestBuilder", "engine/src/command/request/mod.rs: Request::into_bytes"]}
{"id": "C03", "title": "Values survive being passed as request arguments", "statement": "Passing a value to RequestBuilder::value after a key and reading it back from the finished request with the typed accessors used by the Set command (typed_arg / typed_args / args(1..)) yields the same value: same boolean, bytes, float bit pattern, integer, list, string, and the same map or set contents.", "quantifier": "every value of the eight types that the builder accepts without error (non-empty, at most 254 resulting arguments), every key, every order in which maps and sets are iterated", "why_tests_cant": "involves all 64-bit integers and float patterns, all UTF-8 strings, all map contents and iteration orders", "anchors": ["engine/src/command/request/builder.rs: RequestBuilder::value", "engine/src/command/request/mod.rs: Argument::convert, MultiArgument::convert, Request::typed_arg", "engine/src/command/request/mod.rs: Argument::convert, MultiArgument::convert, Request::typed_args"]}
{"id": "C04", "title": "The builder enforces the 255 argument limit with an error", "statement": "Adding an argument that would exceed the argument limit returns TooManyArguments and never panics or produces a request with a wrong count byte.", "quantifier": "every builder state and every argument or value", "why_tests_cant": "needs builders at the exact limit for each value type, in both build profiles", "anchors": ["engine/src/command/request/builder.rs: RequestBuilder::bytes", "engine/src/command/request/builder.rs: RequestBuilder::value", "engine/src/command/request/builder.rs: RequestBuilder::arguments_would_overfill", "engine/src/command/request/builder.rs: RequestBuilder::push_argument"]}
{"id": "C05", "title": "A failed builder call leaves the builder as it was", "statement": "If bytes() or value() returns an error, the builder is unchanged, so the request can still be completed.", "quantifier": "every builder state, every argument or value that is rejected", "why_tests_cant": "quantifies over all partial builder states and all rejected values, including lists failing part-way", "anchors": ["engine/src/command/request/builder.rs: RequestBuilder::bytes", "engine/src/command/request/builder.rs: RequestBuilder::value"]}
{"id": "C06", "title": "Chunking of request bytes does not matter", "statement": "If the request parser answers 'need more data' for a buffer and is fed again after more bytes have been appended, the answer (request, need-more, or error) and the parser state afterwards are the same as if the longer buffer had been fed at once from the original state; hence any way of cutting the bytes into chunks gives the same result as long as earlier chunks were incomplete.", "quantifier": "every parser state, every buffer, every way of cutting it into chunks", "why_tests_cant": "the number of chunkings is exponential in the buffer length and resumption state depends on the cut point", "anchors": ["engine/src/command/request/context.rs: Context::feed, stage_init, stage_kind, stage_argument_parsing"]}
{"id": "C07", "title": "A request sent by the client is parsed by the server as the same request", "statement": "Feeding the bytes of any built request to the server-side parser yields a request with the same command, key type and arguments.", "quantifier": "every command, key type and argument list", "why_tests_cant": "must hold for all requests; the existing tests only look at hand-written buffers", "anchors": ["engine/src/command/request/context.rs: Context::feed", "engine/src/command/request/builder.rs: RequestBuilder"]}
{"id": "C08", "title": "A request is never accepted before all of its bytes have arrived", "statement": "For the bytes of a built request, the server-side parser answers 'need more data' on every proper prefix.", "quantifier": "every built request and every proper prefix of its bytes", "why_tests_cant": "quantifies over all prefixes of all requests", "anchors": ["engine/src/command/request/context.rs: Context::stage_argument_parsing"]}
{"id": "C09", "title": "The request parser always answers, and panics only in one identified situation", "statement": "On every buffer, feed terminates; it returns an error exactly when the parser is at a request start and the first byte is not the code of a command (key-type-invalid if its high bit is set, command-id-invalid otherwise); it panics only if a non-simple command declares zero arguments and at least 257 length-prefixed chunks follow.", "quantifier": "every buffer and every reachable parser state", "why_tests_cant": "termination and panic-freedom over arbitrary attacker-controlled bytes cannot be settled by examples", "anchors": ["engine/src/command/request/context.rs: Context::feed"]}
{"id": "C10", "title": "What a TCP client can obtain and change", "statement": "For every byte stream sent by TCP clients, in any chunking, with any mix of frames: the server's reply to each processed frame is one well-formed response frame, and writes requested by the client (set, increment, append, delete, rename) take effect on the stored keys.", "quantifier": "every input byte stream and chunking, every initial database; counters of the statistics that can still count (what happens otherwise: C182)", "why_tests_cant": "ranges over all byte streams of a network peer", "anchors": ["server/src/main.rs: handle_socket_inner", "engine/src/command/request/context.rs: Context::feed", "engine/src/hop.rs: Hop::dispatch"]}
{"id": "C11", "title": "Responses decode to what was encoded", "statement": "Decoding the bytes written for any response (boolean, bytes, float, integer, list, map, set, string, dispatch error, parse error) yields the same response; maps and sets have the same contents.", "quantifier": "every response value, every iteration order of maps and sets, both build profiles", "why_tests_cant": "all values of all sizes; the failures sit exactly at size boundaries (0, 256, 65536 ...) of each type", "anchors": ["engine/src/command/response/mod.rs: write_*", "engine/src/command/response/context.rs: Context::feed"]}
{"id": "C12", "title": "The frame length header is exact", "statement": "Every written response starts with a 4-byte big-endian number equal to the number of bytes that follow, and writing appends to the output buffer without changing what was there.", "quantifier": "every value whose encoding is shorter than 2^32 bytes, every existing output buffer, every iteration order", "why_tests_cant": "length is accumulated separately from the data; must agree for all values", "anchors": ["engine/src/command/response/mod.rs: write_bool, write_bytes, write_list, write_map, write_set, write_str, write_value"]}
{"id": "C13", "title": "Chunking of response bytes does not matter", "statement": "If the response decoder asks for more bytes and is later fed the same buffer extended by more bytes, its answer is the same as feeding the longer buffer at once.", "quantifier": "every decoder state reachable by feeding, every buffer, every extension", "why_tests_cant": "exponentially many chunkings, with decoder state carried between them", "anchors": ["engine/src/command/response/context.rs: Context::feed and all stages"]}
{"id": "C14", "title": "Reading exactly as many bytes as asked reads exactly one response", "statement": "For a written response frame (within the size limits), a client that repeatedly reads exactly as many bytes as the decoder asks for obtains the response after at most three feeds, never asks for a byte beyond the frame's end, and leaves the decoder ready for the next response; several responses written back to back are all recovered in order.", "quantifier": "every sequence of responses within the limits", "why_tests_cant": "over-reading by one byte is visible only when a further response follows", "anchors": ["engine/src/command/response/context.rs: Context::feed", "engine/src/command/response/context.rs: Context::stage_init", "client/src/backend/server.rs: send_and_wait"]}
{"id": "C15", "title": "The response decoder never panics on arbitrary input", "statement": "For every byte buffer, feeding it to a fresh response decoder returns an instruction or an error and does not panic.", "quantifier": "every byte buffer, both build profiles", "why_tests_cant": "quantifies over all byte buffers", "anchors": ["engine/src/command/response/context.rs: Context::feed, stage_dispatch_error, stage_parse_error, stage_type_init"]}
{"id": "C16", "title": "Wire codes are stable one-to-one encodings", "statement": "For commands, key types, response types, dispatch errors and parse errors: converting to the wire byte and back gives the same item, a byte converts iff some item has that code, and no two items share a code; command names parse back to the command they name and no other text is accepted.", "quantifier": "all items, all 256 bytes, all strings", "why_tests_cant": "the rejection half ranges over every byte and every string", "anchors": ["engine/src/command/command_id.rs: CommandId::try_from", "engine/src/command/command_id.rs: CommandId::from_str", "engine/src/command/command_id.rs: CommandId::name", "engine/src/state/mod.rs: KeyType", "engine/src/command/error.rs", "engine/src/command/response/mod.rs: ResponseType"]}
{"id": "C17", "title": "Set then get returns the value that was set", "statement": "After a successful Set of a key, with any key type and arguments, Get of that key answers with exactly the same response bytes as the Set did (up to map/set ordering), Type reports the type that was set, and Exists reports true.", "quantifier": "every database, every key not reserved for internal use, every request accepted by Set; counters of the statistics that can still count (what happens otherwise: C182)", "why_tests_cant": "all values of all types over all prior databases", "anchors": ["engine/src/command/impl/set.rs", "engine/src/command/impl/get.rs", "engine/src/command/impl/type.rs", "engine/src/command/impl/exists.rs"]}
{"id": "C18", "title": "Set replaces whatever was stored", "statement": "Set with an explicit key type succeeds whatever was stored under the key before (any type, or nothing), and the resulting database does not depend on the previous value of that key.", "quantifier": "every database pair differing only at the key, every Set request with a key type; counters of the statistics that can still count (what happens otherwise: C182)", "why_tests_cant": "compares all pairs of databases", "anchors": ["engine/src/command/impl/set.rs", "client/src/lib.rs: Client::set"]}
{"id": "C19", "title": "Commands touch only the keys they name", "statement": "Executing any command leaves every key other than the request's key (and, for rename, the second argument) exactly as it was, whatever the outcome (success, error, panic).", "quantifier": "every command, request, database and unrelated key, both build profiles", "why_tests_cant": "frame conditions quantify over all other keys of all databases", "anchors": ["engine/src/command/impl/append.rs", "engine/src/command/impl/decrement.rs", "engine/src/command/impl/decrement_by.rs", "engine/src/command/impl/delete.rs", "engine/src/command/impl/echo.rs", "engine/src/command/impl/exists.rs", "engine/src/command/impl/get.rs", "engine/src/command/impl/increment.rs", "engine/src/command/impl/increment_by.rs", "engine/src/command/impl/is.rs", "engine/src/command/impl/keys.rs", "engine/src/command/impl/length.rs", "engine/src/command/impl/rename.rs", "engine/src/command/impl/set.rs", "engine/src/command/impl/stats.rs", "engine/src/command/impl/type.rs", "engine/src/hop.rs: Hop::dispatch"]}
{"id": "C20", "title": "Read commands do not modify the database", "statement": "Echo, Exists, Get, Is, Keys, Length, Stats and Type never change any stored key, whatever the request and outcome.", "quantifier": "every request for those commands, every database", "why_tests_cant": "quantifies over all databases and requests", "anchors": ["engine/src/command/impl/echo.rs", "engine/src/command/impl/exists.rs", "engine/src/command/impl/get.rs", "engine/src/command/impl/is.rs", "engine/src/command/impl/keys.rs", "engine/src/command/impl/length.rs", "engine/src/command/impl/stats.rs", "engine/src/command/impl/type.rs"]}
{"id": "C21", "title": "A command that reports an error has not changed the database", "statement": "If dispatch returns an error, the stored keys are exactly as before.", "quantifier": "every request and database", "why_tests_cant": "error paths after partial effects are reached only by particular request/database combinations", "anchors": ["engine/src/hop.rs: Hop::dispatch", "engine/src/command/impl/append.rs", "engine/src/command/impl/decrement.rs", "engine/src/command/impl/decrement_by.rs", "engine/src/command/impl/delete.rs", "engine/src/command/impl/echo.rs", "engine/src/command/impl/exists.rs", "engine/src/command/impl/get.rs", "engine/src/command/impl/increment.rs", "engine/src/command/impl/increment_by.rs", "engine/src/command/impl/is.rs", "engine/src/command/impl/keys.rs", "engine/src/command/impl/length.rs", "engine/src/command/impl/rename.rs", "engine/src/command/impl/set.rs", "engine/src/command/impl/stats.rs", "engine/src/command/impl/type.rs"]}
{"id": "C22", "title": "Delete removes exactly the key, once", "statement": "Delete of an existing key answers with the key and afterwards the key does not exist (Exists false, Get/Type key-nonexistent, second Delete precondition-failed); delete of a missing key reports precondition-failed and changes nothing.", "quantifier": "every database and key; counters of the statistics that can still count (what happens otherwise: C182)", "why_tests_cant": "quantifies over all databases", "anchors": ["engine/src/command/impl/delete.rs"]}
{"id": "C23", "title": "Rename moves a value without loss", "statement": "Rename from a to b succeeds exactly if a exists and b does not; then b holds precisely what a held, a is gone, the response is b, nothing else changes; otherwise nothing changes and the error says which precondition failed.", "quantifier": "every database and pair of keys, including equal keys; counters of the statistics that can still count (what happens otherwise: C182)", "why_tests_cant": "quantifies over all databases and key pairs", "anchors": ["engine/src/command/impl/rename.rs"]}
{"id": "C24", "title": "Counters count", "statement": "Any sequence of Increment, Decrement, IncrementBy and DecrementBy on an integer (or missing) key leaves the start value (0 if missing) plus the sum of the amounts, and each response carries the running total, as long as no intermediate total leaves the 64-bit range; an overflow wraps in release builds and panics without changing the value in debug builds. Excluded: in debug builds DecrementBy the smallest 64-bit number panics whatever the total would be.", "quantifier": "every sequence of counter operations of any length, every start value, every amount, both build profiles; counters of the statistics that can still count (what happens otherwise: C182)", "why_tests_cant": "unbounded sequences and all 64-bit boundary values", "anchors": ["engine/src/command/impl/increment.rs", "engine/src/command/impl/increment_by.rs", "engine/src/command/impl/decrement.rs", "engine/src/command/impl/decrement_by.rs"]}
{"id": "C25", "title": "Float counters add floats", "statement": "IncrementBy/DecrementBy with a float amount on a float key adds/subtracts the amount; Increment/Decrement with key type float on a missing key creates it.", "quantifier": "every float key value and amount; counters of the statistics that can still count (what happens otherwise: C182)", "why_tests_cant": "all 64-bit patterns", "anchors": ["engine/src/command/impl/increment_by.rs", "engine/src/command/impl/increment.rs", "client/src/request/increment/increment_float.rs"]}
{"id": "C26", "title": "Appends accumulate in order", "statement": "Any sequence of Appends to one key leaves the concatenation, in order, of everything appended (bytes, list items, or UTF-8 text) after the initial content, each response carries the content so far, and a missing key starts empty; splitting one append into several makes no difference to the final content.", "quantifier": "every sequence of appends of any length to bytes, list or string keys; counters of the statistics that can still count (what happens otherwise: C182)", "why_tests_cant": "unbounded histories", "anchors": ["engine/src/command/impl/append.rs"]}
{"id": "C27", "title": "Length, keys, is, exists and type describe the stored value", "statement": "Length answers the number of bytes / items / entries / characters, Keys lists exactly the map's keys without repetition, Type and Is agree with the stored type, Exists/Is over several keys answer true iff it holds for each of them.", "quantifier": "every database, every list of keys; counters of the statistics that can still count (what happens otherwise: C182)", "why_tests_cant": "quantifies over all stored values and key lists", "anchors": ["engine/src/command/impl/length.rs", "engine/src/command/impl/keys.rs", "engine/src/command/impl/is.rs", "engine/src/command/impl/exists.rs", "engine/src/command/impl/type.rs"]}
{"id": "C28", "title": "Statistics count every completed command exactly once", "statement": "After any sequence of dispatches that return, commands_successful plus commands_errored equals the number of dispatches, each equals the number of dispatches with that outcome, and Stats reports the counts of the commands completed before it.", "quantifier": "every history of requests of any length; counters of the statistics that can still count (what happens otherwise: C182)", "why_tests_cant": "unbounded histories", "anchors": ["engine/src/hop.rs: Hop::dispatch", "engine/src/command/impl/stats.rs", "lib/metrics/src/lib.rs"]}
{"id": "C29", "title": "A key's type changes only through set, delete or rename", "statement": "No other command changes the type of an existing key or removes it.", "quantifier": "every history of other commands, every key", "why_tests_cant": "unbounded histories and all commands", "anchors": ["engine/src/command/impl/append.rs", "engine/src/command/impl/decrement.rs", "engine/src/command/impl/decrement_by.rs", "engine/src/command/impl/delete.rs", "engine/src/command/impl/echo.rs", "engine/src/command/impl/exists.rs", "engine/src/command/impl/get.rs", "engine/src/command/impl/increment.rs", "engine/src/command/impl/increment_by.rs", "engine/src/command/impl/is.rs", "engine/src/command/impl/keys.rs", "engine/src/command/impl/length.rs", "engine/src/command/impl/rename.rs", "engine/src/command/impl/set.rs", "engine/src/command/impl/stats.rs", "engine/src/command/impl/type.rs"]}
{"id": "C30", "title": "Internal keys are out of reach of clients", "statement": "Keys starting with '__hop__:' cannot be created, read, changed or deleted by any client request, and requests naming them are answered with an error.", "quantifier": "every request and database", "why_tests_cant": "must hold for every command and argument position", "anchors": ["engine/src/state/mod.rs: key_ref, key_mut, key_or_insert_with", "engine/src/command/impl/append.rs", "engine/src/command/impl/decrement.rs", "engine/src/command/impl/decrement_by.rs", "engine/src/command/impl/delete.rs", "engine/src/command/impl/echo.rs", "engine/src/command/impl/exists.rs", "engine/src/command/impl/get.rs", "engine/src/command/impl/increment.rs", "engine/src/command/impl/increment_by.rs", "engine/src/command/impl/is.rs", "engine/src/command/impl/keys.rs", "engine/src/command/impl/length.rs", "engine/src/command/impl/rename.rs", "engine/src/command/impl/set.rs", "engine/src/command/impl/stats.rs", "engine/src/command/impl/type.rs"]}
{"id": "C31", "title": "Dispatch does not panic on well-formed requests", "statement": "For every request produced by the builder and every database, dispatch returns a result rather than panicking, except for identified cases (internal keys, integer overflow in debug builds, oversized responses in debug builds, empty keys in debug builds).", "quantifier": "every request, every database; counters of the statistics that can still count (what happens otherwise: C182)", "why_tests_cant": "panic-freedom over all inputs", "anchors": ["engine/src/hop.rs: Hop::dispatch"]}
{"id": "C32", "title": "Concurrent increments of an existing counter are never lost", "statement": "If any number of clients concurrently increment/decrement (by any amounts) an existing integer key, then under every interleaving all succeed and the final value is the initial value plus the sum of all amounts, and the responses are the partial sums in the order the operations took effect.", "quantifier": "every number of clients, every schedule of their atomic map operations, release profile or no overflow; counters of the statistics that can still count (what happens otherwise: C182)", "why_tests_cant": "exponentially many interleavings", "anchors": ["engine/src/state/mod.rs: key_or_insert_with", "engine/src/command/impl/increment_by.rs"]}
{"id": "C33", "title": "Concurrent increments of a missing counter are never lost", "statement": "If several clients concurrently increment a key that does not exist yet, the final value is the number of increments under every interleaving.", "quantifier": "every schedule; counters of the statistics that can still count (what happens otherwise: C182)", "why_tests_cant": "the race needs a specific interleaving of the map operations inside key_or_insert_with", "anchors": ["engine/src/state/mod.rs: key_or_insert_with"]}
{"id": "C34", "title": "Concurrent commands on different keys do not interfere", "statement": "If the keys named by one command are not changed by any other command running concurrently (in particular if they name disjoint sets of keys), then under every interleaving that command gives the same result and leaves the same values under its keys as when run alone. Stats, which reads the shared counters, is excluded.", "quantifier": "every finite set of commands with disjoint keys, every schedule; counters of the statistics that can still count (what happens otherwise: C182)", "why_tests_cant": "exponentially many interleavings of arbitrary commands", "anchors": ["engine/src/state/mod.rs", "engine/src/command/impl/append.rs", "engine/src/command/impl/decrement.rs", "engine/src/command/impl/decrement_by.rs", "engine/src/command/impl/delete.rs", "engine/src/command/impl/echo.rs", "engine/src/command/impl/exists.rs", "engine/src/command/impl/get.rs", "engine/src/command/impl/increment.rs", "engine/src/command/impl/increment_by.rs", "engine/src/command/impl/is.rs", "engine/src/command/impl/keys.rs", "engine/src/command/impl/length.rs", "engine/src/command/impl/rename.rs", "engine/src/command/impl/set.rs", "engine/src/command/impl/stats.rs", "engine/src/command/impl/type.rs"]}
{"id": "C35", "title": "A concurrent reader never sees a key disappear or take a default value while it is being set", "statement": "While one client overwrites an existing key with Set, a concurrent Get returns either the old or the new value.", "quantifier": "every schedule of a Set and a Get; counters of the statistics that can still count (what happens otherwise: C182)", "why_tests_cant": "needs specific interleavings", "anchors": ["engine/src/command/impl/set.rs", "engine/src/state/mod.rs: remove, key_or_insert_with"]}
{"id": "C36", "title": "Concurrent renames never lose or overwrite data", "statement": "If clients concurrently rename keys or create the target key, no value is lost: a rename reporting success has not overwritten a value another client stored.", "quantifier": "every schedule; counters of the statistics that can still count (what happens otherwise: C182)", "why_tests_cant": "check-then-act race needs a specific interleaving", "anchors": ["engine/src/command/impl/rename.rs"]}
{"id": "C37", "title": "Concurrent appends to an existing key keep every item", "statement": "If any number of clients concurrently append to an existing bytes, list or string key, under every interleaving the final content is the initial content followed by all appended blocks, each block contiguous and present exactly once.", "quantifier": "every number of clients, every schedule; counters of the statistics that can still count (what happens otherwise: C182)", "why_tests_cant": "exponentially many interleavings", "anchors": ["engine/src/command/impl/append.rs", "engine/src/state/mod.rs: key_or_insert_with"]}
{"id": "C38", "title": "Session identifiers are unique", "statement": "As long as fewer than 2^32 sessions have been added, adding never panics, all ids are different, ids are assigned in order from 0, and remove answers true exactly once per session.", "quantifier": "every history of adds and removes", "why_tests_cant": "unbounded histories", "anchors": ["engine/src/session/manager.rs"]}
{"id": "C39", "title": "Subscribing makes a subscription that unsubscribing removes", "statement": "subscribe answers with a subscription exactly if that session was not yet subscribed to that key, get then finds it, unsubscribe answers true exactly if subscribed, and after it the session can subscribe again; removing a session ends all its subscriptions.", "quantifier": "every history of subscribe/unsubscribe/remove_session calls", "why_tests_cant": "unbounded histories over several sessions and keys", "anchors": ["engine/src/pubsub/manager.rs"]}
{"id": "C40", "title": "Metrics counters and gauges behave like a map of numbers", "statement": "After any sequence of writes, a counter reads None if never incremented and otherwise the number of increments; a gauge reads the last written value; a snapshot shows what was there when it was taken and no write through a writer ever changes it (its owner may write into its own copies, and then reads back what they wrote last); once the metrics instance is dropped readers read None and writers report failure.", "quantifier": "every history of operations on readers, writers and snapshots", "why_tests_cant": "unbounded histories", "anchors": ["lib/metrics/src/lib.rs"]}
{"id": "C41", "title": "The timer is a start/stop/reset state machine with non-negative durations", "statement": "start succeeds iff not started since the last reset, stop succeeds iff running and returns stop time minus start time, duration is available iff stopped and equals what stop returned, is_running iff started and not stopped; with a non-decreasing clock no operation panics.", "quantifier": "every history of operations and every non-decreasing clock whose readings have a non-negative number of seconds", "why_tests_cant": "unbounded histories and all clock readings", "anchors": ["lib/timer/src/lib.rs"]}
{"id": "C42", "title": "Client set/get round trip through the in-memory backend", "statement": "With the in-memory backend, set(key, value) resolves to the value, and a following get(key) resolves to the value, for all values that the protocol can carry; values it cannot carry are rejected with an error.", "quantifier": "every database, key, value, iteration order; counters of the statistics that can still count (what happens otherwise: C182)", "why_tests_cant": "composition of builder, dispatch, response writer and decoder over all values", "anchors": ["client/src/backend/memory.rs: set, get, send", "engine/src/command/request/builder.rs", "engine/src/command/impl/set.rs", "engine/src/command/response/mod.rs", "engine/src/command/response/context.rs"]}
{"id": "C43", "title": "Client calls on the in-memory backend never panic", "statement": "No call on the in-memory backend panics, whatever the arguments and stored data.", "quantifier": "every call and database; counters of the statistics that can still count (what happens otherwise: C182)", "why_tests_cant": "quantifies over all databases and arguments", "anchors": ["client/src/backend/memory.rs"]}
{"id": "C44", "title": "The TCP client backend returns the server's answer", "statement": "When the server answers a request with a response frame, the call on the server backend resolves to that response.", "quantifier": "every request and response frame", "why_tests_cant": "ranges over all responses", "anchors": ["client/src/backend/server.rs: send_and_wait"]}
{"id": "C45", "title": "CLI input becomes the request it spells", "statement": "A command line '<command>[:<type>] <arg> ...' with non-empty arguments is parsed to a request with that command, that key type (bytes if none) and those arguments in order, integers and booleans being encoded in binary after the key; lines with an unknown command or type are rejected.", "quantifier": "every input line", "why_tests_cant": "ranges over all strings", "anchors": ["cli/lib/src/parse.rs"]}
{"id": "C46", "title": "CLI output shows lists and maps completely", "statement": "Printing a list or map response shows every item in full.", "quantifier": "every list and map", "why_tests_cant": "ranges over all contents", "anchors": ["cli/lib/src/print.rs"]}
{"id": "C47", "title": "Multi-key client requests are validated", "statement": "exists().keys(..) and is(..).keys(..) reject an empty key list with NoKeys and more than 255 keys with TooManyKeys, and accept everything else, in which case building the request cannot overflow the argument limit.", "quantifier": "every list of keys", "why_tests_cant": "ranges over all lists including the exact limits", "anchors": ["client/src/request/exists.rs", "client/src/request/is.rs", "client/src/backend/memory.rs: exists, is"]}
{"id": "C48", "title": "The engine behaves as a simple typed key-value store", "statement": "For any history of requests, the engine's answers and database equal those of an abstract key-value store described independently (typed values, explicit preconditions), with the documented exceptions.", "quantifier": "every history of requests of any length, starting from any database; counters of the statistics that can still count (in release builds, and without Stats: any counters)", "why_tests_cant": "unbounded histories over all commands", "anchors": ["engine/src/hop.rs: Hop::dispatch", "engine/src/command/impl/append.rs", "engine/src/command/impl/decrement.rs", "engine/src/command/impl/decrement_by.rs", "engine/src/command/impl/delete.rs", "engine/src/command/impl/echo.rs", "engine/src/command/impl/exists.rs", "engine/src/command/impl/get.rs", "engine/src/command/impl/increment.rs", "engine/src/command/impl/increment_by.rs", "engine/src/command/impl/is.rs", "engine/src/command/impl/keys.rs", "engine/src/command/impl/length.rs", "engine/src/command/impl/rename.rs", "engine/src/command/impl/set.rs", "engine/src/command/impl/stats.rs", "engine/src/command/impl/type.rs"]}
{"id": "C49", "title": "Exactly which byte buffers the server takes for a request", "statement": "A fresh server-side parser answers a buffer with a request exactly if the buffer starts with the code of Stats, or with the code of another command, a count n of at least 1, n-1 complete length-prefixed arguments and a last argument whose length field is present and announces no more bytes than the buffer holds from that field on; the request then has that command, no key type and no arguments, and the parser is back at its start state.", "quantifier": "every byte buffer", "why_tests_cant": "an if-and-only-if over all byte buffers", "anchors": ["engine/src/command/request/context.rs: Context::feed"]}
{"id": "C50", "title": "A response survives the wire exactly if it is within identified limits", "statement": "Encode any response whose map keys and set items are distinct and whose encoding is below 4 GiB; if the encoder does not panic, then a fresh decoder given the bytes (followed by anything) concludes with the same response exactly if: bytes are non-empty in debug builds; lists have 1 to 65535 items; maps have at most 65535 entries with keys of at most 255 bytes; sets have 1 to 65535 items of at most 65535 bytes each; all other responses always survive.", "quantifier": "every response, every iteration order of maps and sets, both build profiles, every following bytes", "why_tests_cant": "an if-and-only-if over all responses, including ones of several GiB", "anchors": ["engine/src/command/response/mod.rs: Response::copy_to, as_bytes, write_*", "engine/src/command/response/context.rs: Context::feed"]}
{"id": "C51", "title": "Exactly which bytes make the response decoder panic", "statement": "A decoder fed any bytes in any chunking panics exactly if the frame announced by the 4-byte header has arrived and it is an error frame with an unknown code, or, in debug builds, a bytes frame of length zero or a frame that ends inside its count field.", "quantifier": "every byte buffer, every chunking, both build profiles", "why_tests_cant": "an if-and-only-if over all byte buffers", "anchors": ["engine/src/command/response/context.rs: Context::feed, stage_*"]}
{"id": "C52", "title": "Set stores exactly the entries it was given", "statement": "A Set with key type map stores exactly the given key/value pairs (for a repeated key the last one wins), a Set with key type set stores exactly the given items, and the stored keys and items are without repetition.", "quantifier": "every request, every database", "why_tests_cant": "over all argument lists, including repeated keys in any order", "anchors": ["engine/src/command/impl/set.rs", "engine/src/command/request/mod.rs: typed_args"]}
{"id": "C53", "title": "Exactly when a command that reports an error has changed a key", "statement": "If dispatch returns an error, some stored key differs from before exactly if the command was Increment or Decrement with key type float and the key did not exist; that key then holds the integer 0 and nothing else changed.", "quantifier": "every request, every database", "why_tests_cant": "an if-and-only-if over all error paths of all commands", "anchors": ["engine/src/command/impl/increment.rs", "engine/src/command/impl/decrement.rs"]}
{"id": "C54", "title": "A key nobody changes stays as it was under concurrency", "statement": "Whatever any number of clients do concurrently, at every moment of every interleaving a key that none of their requests names as a key to change holds what it held at the start.", "quantifier": "every set of concurrent requests, every interleaving, every database", "why_tests_cant": "over all interleavings of all commands, at every moment", "anchors": ["engine/src/state/mod.rs", "engine/src/command/impl/append.rs", "engine/src/command/impl/decrement.rs", "engine/src/command/impl/decrement_by.rs", "engine/src/command/impl/delete.rs", "engine/src/command/impl/echo.rs", "engine/src/command/impl/exists.rs", "engine/src/command/impl/get.rs", "engine/src/command/impl/increment.rs", "engine/src/command/impl/increment_by.rs", "engine/src/command/impl/is.rs", "engine/src/command/impl/keys.rs", "engine/src/command/impl/length.rs", "engine/src/command/impl/rename.rs", "engine/src/command/impl/set.rs", "engine/src/command/impl/stats.rs", "engine/src/command/impl/type.rs"]}
{"id": "C55", "title": "The By counters refuse everything but integers", "statement": "IncrementBy and DecrementBy on a key holding anything but an integer report key-type-different and change nothing, and an amount shorter than eight bytes is refused with an argument-retrieval error. Excluded are keys that make every command panic (internal keys; empty keys in debug builds) and, in debug builds, the amount -2^63. (In debug builds, a server that cannot count the error any more, having counted 2^64 - 1, panics instead.)", "quantifier": "every request, every database", "why_tests_cant": "over all stored values and amounts", "anchors": ["engine/src/command/impl/increment_by.rs", "engine/src/command/impl/decrement_by.rs"]}
{"id": "C56", "title": "Stored maps and sets never contain a repetition", "statement": "Starting from a database in which no stored map repeats a key and no stored set repeats an item, after any history of requests (well-formed or not; successful, erroring or panicking) this is still so.", "quantifier": "every history of requests", "why_tests_cant": "an invariant over unbounded histories", "anchors": ["engine/src/command/impl/append.rs", "engine/src/command/impl/decrement.rs", "engine/src/command/impl/decrement_by.rs", "engine/src/command/impl/delete.rs", "engine/src/command/impl/echo.rs", "engine/src/command/impl/exists.rs", "engine/src/command/impl/get.rs", "engine/src/command/impl/increment.rs", "engine/src/command/impl/increment_by.rs", "engine/src/command/impl/is.rs", "engine/src/command/impl/keys.rs", "engine/src/command/impl/length.rs", "engine/src/command/impl/rename.rs", "engine/src/command/impl/set.rs", "engine/src/command/impl/stats.rs", "engine/src/command/impl/type.rs", "engine/src/state/value.rs"]}
{"id": "C57", "title": "All ways in which a request can change an internal key", "statement": "If a request changes the entry of a key starting with \"__hop__:\", then either the entry is gone and the request was a Delete, Rename or Set naming it as its key, or the entry was missing and the request was a Rename to it, and it now holds what the renamed key held. The value of an internal key is never changed in place.", "quantifier": "every request, every database", "why_tests_cant": "over all commands, arguments and databases", "anchors": ["engine/src/state/mod.rs", "engine/src/command/impl/rename.rs", "engine/src/command/impl/delete.rs", "engine/src/command/impl/set.rs"]}
{"id": "C58", "title": "Single-key commands are linearizable", "statement": "Concurrent reads of one key, deletes, and counters and appends on keys that exist and are not deleted meanwhile: under every interleaving that lets all finish there is an order, respecting real time, in which serving the requests one after the other gives every client the same answer and leaves the same stored keys; and no client ever waits for another: three operations per client suffice.", "quantifier": "every set of such requests, every interleaving, every database; counters of the statistics that can still count (what happens otherwise: C182)", "why_tests_cant": "over all interleavings of unboundedly many clients", "anchors": ["engine/src/state/mod.rs", "engine/src/command/impl/append.rs", "engine/src/command/impl/decrement.rs", "engine/src/command/impl/decrement_by.rs", "engine/src/command/impl/delete.rs", "engine/src/command/impl/echo.rs", "engine/src/command/impl/exists.rs", "engine/src/command/impl/get.rs", "engine/src/command/impl/increment.rs", "engine/src/command/impl/increment_by.rs", "engine/src/command/impl/is.rs", "engine/src/command/impl/keys.rs", "engine/src/command/impl/length.rs", "engine/src/command/impl/rename.rs", "engine/src/command/impl/set.rs", "engine/src/command/impl/stats.rs", "engine/src/command/impl/type.rs"]}
{"id": "C59", "title": "Only one client can take a key", "statement": "If clients concurrently delete an existing key or rename it to other keys and nobody else changes it, then at every moment of every interleaving at most one of them has ended without an error and, if one has, the key is gone; if one of them is a Delete and all have finished, exactly one of them has ended without an error.", "quantifier": "every set of such requests, every interleaving, every database; counters of the statistics that can still count (what happens otherwise: C182)", "why_tests_cant": "over all interleavings of unboundedly many clients", "anchors": ["engine/src/command/impl/delete.rs", "engine/src/command/impl/rename.rs"]}
{"id": "C60", "title": "Statistics are exact under concurrency", "statement": "At every moment of every interleaving of any requests, the counter of successful commands is its initial value plus the number of clients answered with success so far, the counter of failed commands its initial value plus the number answered with an error, and no other counter has changed.", "quantifier": "every set of concurrent requests, every interleaving, every moment; counters of the statistics that can still count (what happens otherwise: C182)", "why_tests_cant": "over all interleavings, at every moment", "anchors": ["engine/src/hop.rs: dispatch", "lib/metrics/src/lib.rs: Writer::increment"]}
{"id": "C61", "title": "Sessions added concurrently are different", "statement": "When fewer than 2^32 sessions are added and removed concurrently, no addition panics, every added session is stored under the identifier it carries, and no two additions answer with the same identifier.", "quantifier": "every set of concurrent additions and removals, every interleaving", "why_tests_cant": "over all interleavings; the harmful ones need a thread to be interrupted at particular points", "anchors": ["engine/src/session/manager.rs: add, remove"]}
{"id": "C62", "title": "What publish/subscribe answers exactly", "statement": "After any history: get finds a subscription exactly if the session subscribed to the key and neither unsubscribed nor was removed since; subscribe answers with a subscription exactly if nobody ever subscribed to the key before; unsubscribe answers true exactly if the session is subscribed, or was the first ever to subscribe to the key and has not unsubscribed since; remove_session answers true exactly if the session has subscribed to anything since its last removal.", "quantifier": "every history of subscribe, unsubscribe and remove_session calls", "why_tests_cant": "unbounded histories over several sessions and keys", "anchors": ["engine/src/pubsub/manager.rs"]}
{"id": "C63", "title": "A TCP client can neither read nor change stored data", "statement": "Whatever bytes any number of TCP clients send at the same time: no stored key ever changes; each connection that has ended has received exactly one response frame, in order, for each command or unreadable input heard in its stream, where the input is looked at after each newline and at the end; what is heard depends on the bytes alone; Stats is answered with counter values of the time, Echo with an empty list, and every other command with an error; the connection breaks down exactly if the client sends a request that announces no arguments and contains more than 256.", "quantifier": "every set of byte streams, every interleaving of the connections, every database whose counters can still count", "why_tests_cant": "ranges over all byte streams of several network peers and all interleavings", "anchors": ["server/src/main.rs: handle_socket_inner", "engine/src/command/request/context.rs: Context::feed", "engine/src/hop.rs: Hop::dispatch"]}
{"id": "C64", "title": "Exactly which values survive a client set", "statement": "With the in-memory backend, for a key that is neither empty nor reserved and a value that takes less than 4 GiB in a response, set resolves to a value equal to the one given exactly if: bytes and text are not empty; a list has 1 to 254 items, none of them empty; a map has 1 to 127 entries with keys below 256 bytes; a set has 1 to 254 items below 65536 bytes.", "quantifier": "every key, value, stored data, build profile and iteration order of maps and sets; counters of the statistics that can still count (what happens otherwise: C182)", "why_tests_cant": "an equivalence over all values; needs both that everything inside the limits works and that everything outside fails", "anchors": ["client/src/backend/memory.rs: set", "engine/src/command/request/builder.rs: value", "engine/src/command/response/mod.rs"]}
{"id": "C65", "title": "An in-memory client call is the engine command it stands for", "statement": "A call on the in-memory backend with at most 255 arguments that has an empty key, an empty value or item, or a value of an unsupported kind resolves to the error saying so and changes nothing, not even statistics. Any other call has exactly the effect of the engine command it stands for on stored keys and statistics, and resolves to the command's answer, provided the answer is within the limits of a response. The engine's answer always has the type the call promises.", "quantifier": "every client call, all stored data and counter values; counters of the statistics that can still count (what happens otherwise: C182)", "why_tests_cant": "ranges over all calls, arguments and database states", "anchors": ["client/src/backend/memory.rs", "engine/src/hop.rs: Hop::dispatch"]}
{"id": "C66", "title": "Typed client requests", "statement": "For keys that are neither empty nor reserved: get(key).<type>() resolves to the stored value (if a response can carry it) if it has that type, panics if it has another, and is an error if the key is missing. set(key).<type>(v) resolves to v and stores it, for all v that can be carried (C64). append(key).<type>(v) resolves to the engine's answer to the append (the value it left behind, of that type, or the engine's error) and panics only if the command itself does. increment(key).int().by(n) adds n to an integer or missing key and resolves to the sum, unless it overflows. increment(key).float().by(x) and decrement(key).float().by(x) never resolve to a number: on an integer or missing key increment adds the 64 bits of x to the integer, stores the result and panics.", "quantifier": "every key, type, value and stored data; counters of the statistics that can still count (what happens otherwise: C182)", "why_tests_cant": "all floats and all stored values, both build profiles", "anchors": ["client/src/request/get", "client/src/request/set", "client/src/request/append", "client/src/request/increment", "client/src/request/decrement"]}
{"id": "C67", "title": "What a call on the TCP client backend does", "statement": "A call on the server backend with an empty key, an empty value or item, or a value of an unsupported kind sends nothing and resolves to the error saying so. Any other call with at most 255 arguments, on a connection that accepts all of its bytes, sends exactly the bytes of the command it stands for (increment without its key type), reads nothing, and resolves to ConnectionClosed whatever the server answers; on a connection that fails after accepting fewer bytes than that, it sends just those first bytes and resolves to WritingMessage.", "quantifier": "every client call and every byte sequence the server may send", "why_tests_cant": "ranges over all calls and all byte streams of the peer", "anchors": ["client/src/backend/server.rs: send_and_wait", "client/src/backend/server.rs"]}
{"id": "C68", "title": "Statistics through the client", "statement": "stats() resolves to a map in which commands_errored(), commands_successful() and sessions_started() return the counters' values from before the call (0 if never counted), in whatever order the map is delivered, as long as they are below 2^63; sessions_ended() returns 0 whatever was counted.", "quantifier": "every database and counter values, every iteration order of maps; counters of the statistics that can still count (what happens otherwise: C182)", "why_tests_cant": "counter values up to 2^63 and all map orders", "anchors": ["client/src/model.rs: StatsData", "engine/src/command/impl/stats.rs", "client/src/backend/memory.rs: stats"]}
{"id": "C69", "title": "Every line is parsed or refused for one of five reasons", "statement": "A line given to the CLI is refused because it starts with a space or is empty, because its first word is no command with an optional type, because a key is missing, because a word is not a value of the named type, or because there is an empty word among the arguments. In every other case it becomes a request with that command and that type; its arguments are, if there are at most 255 and the command is not stats (which loses them), those of the line in order (a last map key without a value is dropped). More than 255 arguments panic in a debug build, and are the only lines that may panic at all.", "quantifier": "every input line", "why_tests_cant": "ranges over all strings", "anchors": ["cli/lib/src/parse.rs: parse", "cli/lib/src/parse.rs: input_args", "cli/lib/src/parse.rs: command"]}
{"id": "C70", "title": "What printing a list, set or map leaves out", "statement": "Printing a list or map gives its items one per line, without the last line break and without the character before it; it panics if that character is not ASCII, and (in a debug build) if there is nothing to print.", "quantifier": "every list and map", "why_tests_cant": "ranges over all contents", "anchors": ["cli/lib/src/print.rs: list", "cli/lib/src/print.rs: map"]}
{"id": "C71", "title": "Integers survive being printed and typed in again", "statement": "The text printed for an integer is its decimal notation, and typing that text as an integer argument gives the same integer.", "quantifier": "every 64-bit integer", "why_tests_cant": "2^64 integers", "anchors": ["cli/lib/src/print.rs: value", "cli/lib/src/parse.rs: input_args"]}
{"id": "C72", "title": "A line does what the client call it spells does", "statement": "A line with a command and at most 255 non-empty arguments executes the client call of that command, whatever type it names (except for is), changes keys and statistics exactly as that call does and prints its result or a message for its error. append, set, length, increment:by and decrement:by panic instead and change nothing.", "quantifier": "every line, database and interleaving; counters of the statistics that can still count (what happens otherwise: C182)", "why_tests_cant": "ranges over all lines and states", "anchors": ["cli/lib/src/process.rs: process", "cli/lib/src/process.rs: process_inner", "cli/lib/src/process.rs: backend_err"]}
{"id": "C73", "title": "The CLI can only store integers", "statement": "After any session every stored value is an integer or was stored, possibly under another key, before the session.", "quantifier": "every sequence of lines and every database", "why_tests_cant": "ranges over all sessions", "anchors": ["cli/lib/src/process.rs: process_inner", "cli/bin/src/main.rs: run"]}
{"id": "C74", "title": "A session ends at the first line that cannot be parsed", "statement": "A CLI session carries out its lines one by one and prints one text for each, ignoring white space at their ends, until one cannot be parsed (a blank line too); it then ends with that line's error, changes nothing for it and carries out none of the later lines. At the end of the input it ends with the error that no command was provided.", "quantifier": "every sequence of lines and every database", "why_tests_cant": "ranges over all sessions", "anchors": ["cli/bin/src/main.rs: run"]}
{"id": "C75", "title": "Numbers and text on the wire are big-endian, two's complement and UTF-8", "statement": "In the bytes of every request built and every response written, lengths and numbers are most significant byte first with the documented widths, integers are 64-bit two's complement, floats are their bit pattern and text is UTF-8; and argument bytes are read back as exactly those integers, floats and texts (the first eight bytes; fewer are refused; anything that is not UTF-8 is refused).", "quantifier": "every request, response and argument", "why_tests_cant": "the number of values is unbounded; tests share the encoder with the decoder and so cannot see both being wrong", "anchors": ["engine/src/command/request/builder.rs: Builder", "engine/src/command/response/mod.rs: write_*", "engine/src/command/request/mod.rs: typed_arg"]}
{"id": "C76", "title": "The configured limits are enforced", "statement": "An engine never has more active sessions than the configured maximum, and with publish/subscribe disabled no subscription can be made.", "quantifier": "every configuration and every history of operations on the engine", "why_tests_cant": "ranges over all configurations and histories", "anchors": ["engine/src/hop.rs: Config", "engine/src/hop.rs: Builder", "engine/src/session/manager.rs: SessionManager::add", "engine/src/pubsub/manager.rs: PubSubManager::subscribe"]}
{"id": "C77", "title": "The configuration is reported and has no effect", "statement": "The configuration of an engine reports the last value given to its builder for each option, or the default (publish/subscribe enabled, 2^64-1 sessions), for ever; and the engine answers every operation as one with the default configuration does.", "quantifier": "every sequence of builder calls and every history", "why_tests_cant": "ranges over all histories", "anchors": ["engine/src/hop.rs: Config", "engine/src/hop.rs: Builder", "engine/src/hop.rs: Hop"]}
{"id": "C78", "title": "Commands, sessions and subscriptions do not interfere", "statement": "In a mixed history of requests, session operations and publish/subscribe operations on one engine, every request other than Stats is answered as if there had only been the requests, every session operation as if there had only been session operations, every publish/subscribe operation as if there had only been those; and the stored keys are those the requests alone leave.", "quantifier": "every mixed history of fewer than 2^63 operations", "why_tests_cant": "ranges over all interleavings of histories", "anchors": ["engine/src/hop.rs: Hop", "engine/src/session/manager.rs: SessionManager", "engine/src/pubsub/manager.rs: PubSubManager"]}
{"id": "C79", "title": "Metrics and Stats count everything that happened to an engine", "statement": "After a mixed history, the metrics of the engine and the answer to a Stats request show the number of requests that succeeded, the number that ended in an error and the number of sessions started; counters that counted nothing are missing, and sessions ended are never counted.", "quantifier": "every mixed history of fewer than 2^63 operations", "why_tests_cant": "ranges over all histories", "anchors": ["engine/src/hop.rs: Hop::dispatch", "engine/src/command/impl/stats.rs: Stats", "engine/src/session/manager.rs: SessionManager::add", "engine/src/metrics.rs: Metric"]}
{"id": "C80", "title": "A value answers to its own type only", "statement": "Of the eight type predicates of a value exactly that of its own type holds, and exactly the accessor of its own type gives its contents.", "quantifier": "every value and every type", "why_tests_cant": "ranges over all values", "anchors": ["engine/src/state/value.rs: Value"]}
{"id": "C81", "title": "The key space is a map", "statement": "For every history of calls of the public functions of the key space, the answers and the contents are those of a map from keys to values updated at one key at a time, except that the functions handing out a guard panic (changing nothing) for keys that begin with __hop__: and, in debug builds, for the empty key.", "quantifier": "every history of calls and every contents", "why_tests_cant": "ranges over all histories", "anchors": ["engine/src/state/mod.rs: State"]}
{"id": "C82", "title": "The key space keeps internal keys to itself", "statement": "No public function of the key space gives access to a key that begins with __hop__:.", "quantifier": "every function, key and contents", "why_tests_cant": "ranges over all keys and contents", "anchors": ["engine/src/state/mod.rs: State"]}
{"id": "C83", "title": "Stored maps and sets never contain a repetition, at any moment of any concurrent execution", "statement": "If no stored map repeats a key and no stored set repeats an item, this is still so at every moment while any number of clients concurrently issue any requests (well-formed or not, successful, erroring or panicking), each chosen in the light of the answers received so far.", "quantifier": "every number of clients, every strategy of each, every interleaving, every database, both build profiles", "why_tests_cant": "interleavings, strategies and histories are unbounded", "anchors": ["engine/src/command/impl/set.rs: Set", "engine/src/command/request/mod.rs: typed_args", "engine/src/hop.rs: Hop::dispatch"]}
{"id": "C84", "title": "The type of an existing key is stable under concurrency", "statement": "While any number of clients concurrently issue any requests other than Set, Delete and Rename of a key and Rename to it, the key, if it existed at the start, exists at every moment and has the type it had. (For a key that is created meanwhile this fails: two clients that both find it missing may create it one after the other with different types.)", "quantifier": "every number of clients, every strategy of each, every interleaving, every database", "why_tests_cant": "interleavings, strategies and histories are unbounded", "anchors": ["engine/src/state/mod.rs: State::key_or_insert_with", "engine/src/command/impl/append.rs: Append", "engine/src/command/impl/increment_by.rs: IncrementBy"]}
{"id": "C85", "title": "Internal keys only ever vanish", "statement": "Unless a Rename to it is issued, a key beginning with __hop__: is, between any two moments of any concurrent execution, either unchanged or has been removed; it is never created nor given another value. If moreover no Set, Delete or Rename of it is issued it never changes.", "quantifier": "every number of clients, every strategy of each, every interleaving, every database", "why_tests_cant": "interleavings, strategies and histories are unbounded", "anchors": ["engine/src/state/mod.rs: State", "engine/src/command/impl/rename.rs: Rename", "engine/src/command/impl/delete.rs: Delete"]}
{"id": "C86", "title": "In release builds only internal keys make a request panic, also under concurrency", "statement": "In a release build, whatever is stored and whatever other clients do concurrently, no request of a client panics as long as none of them names a key beginning with __hop__: as the key of an Append, counter command, Get, Keys, Length or Set; requests may be malformed.", "quantifier": "every number of clients, every strategy of each, every interleaving, every database", "why_tests_cant": "interleavings, strategies and stored values are unbounded", "anchors": ["engine/src/hop.rs: Hop::dispatch", "engine/src/state/mod.rs: State::key_ref", "engine/src/command/response/mod.rs: write_*"]}
{"id": "C87", "title": "A Set with a valid value succeeds whatever others do", "statement": "A Set that names its type and whose arguments spell a value of that type answers with that value, also when other clients set the same key at the same time.", "quantifier": "any number of clients, every interleaving, every database; counters of the statistics that can still count (what happens otherwise: C182); keys that are not internal and (in debug builds) not empty; values that fit into a response", "why_tests_cant": "interleavings are unbounded; the failing one needs four steps in one particular order", "anchors": ["engine/src/command/impl/set.rs: Set", "engine/src/state/mod.rs: State::key_or_insert_with"]}
{"id": "C88", "title": "Concurrent Sets of one key: one of those that succeed wins", "statement": "When any number of clients set one key at the same time, each to a value of its own whose type it names, and the others do not change the key, then, once all have finished: every Set was answered with its own value, or with KeyTypeDifferent (only if some client sets a value of another type); at least one succeeded; and the key holds exactly the value of one of those that succeeded.", "quantifier": "any number of clients, every interleaving, every value and type, every database; counters of the statistics that can still count (what happens otherwise: C182); keys that are not internal and (in debug builds) not empty; values that fit into a response", "why_tests_cant": "interleavings are unbounded", "anchors": ["engine/src/command/impl/set.rs: Set", "engine/src/state/mod.rs: State::key_or_insert_with"]}
{"id": "C89", "title": "Concurrent Appends to a missing key lose nothing", "statement": "When any number of clients append to one missing key at the same time, naming the same type, then once all have finished the key holds all appended blocks, in some order.", "quantifier": "any number of clients, every interleaving, every database; counters of the statistics that can still count (what happens otherwise: C182); keys that are not internal and (in debug builds) not empty", "why_tests_cant": "interleavings are unbounded", "anchors": ["engine/src/command/impl/append.rs: Append", "engine/src/state/mod.rs: State::key_or_insert_with"]}
{"id": "C90", "title": "Concurrent creation of a missing key: the last few commands count", "statement": "When any number of clients add to one missing key at the same time (by counter commands with integer amounts, or by Appends naming one type) and the others do not change it, then, once all have finished, there is an order of these commands such that the key holds exactly what executing the last few of them (at least one) one after another leaves, and each command was answered as if a run of consecutive commands ending with it had been executed one after another.", "quantifier": "any number of clients, every interleaving, every database in which the key is missing, both build profiles; counters of the statistics that can still count (what happens otherwise: C182); keys that are not internal and (in debug builds) not empty", "why_tests_cant": "interleavings are unbounded", "anchors": ["engine/src/command/impl/append.rs: Append", "engine/src/command/impl/increment_by.rs: IncrementBy", "engine/src/state/mod.rs: State::key_or_insert_with"]}
{"id": "C91", "title": "The server listens where it is told to", "statement": "The server listens on the port given by the environment variable PORT if that is the decimal notation (an optional plus sign, then digits) of a number below 65536, and on 46733 otherwise; and on the address given by HOST if that is an address, and on 0.0.0.0 otherwise.", "quantifier": "every value of the two variables, set or not", "why_tests_cant": "the texts are unbounded; leading zeros, signs, overflow and non-digits all matter", "anchors": ["server/src/main.rs: Config::new"]}
{"id": "C92", "title": "A connection that cannot be accepted does not stop the server", "statement": "A connection that comes in while the server runs is handled, also when an earlier one could not be accepted. A server whose address cannot be bound ends with an error.", "quantifier": "every sequence of incoming connections and failures", "why_tests_cant": "failures of accept (for example too many open files) are not produced by tests, and sequences are unbounded", "anchors": ["server/src/main.rs: main"]}
{"id": "C93", "title": "Publish/subscribe calls from several threads behave as if made one at a time", "statement": "When any number of threads call subscribe, unsubscribe, remove_session and get at the same time, then, once all have returned, there is an order of the calls in which, made one at a time, each gives the answer it gave.", "quantifier": "any number of threads, every interleaving, every assignment of entries to locks", "why_tests_cant": "interleavings are unbounded; the failing one needs unsubscribe to be overtaken between its two halves", "anchors": ["engine/src/pubsub/manager.rs: PubSubManager::subscribe", "engine/src/pubsub/manager.rs: PubSubManager::unsubscribe", "engine/src/pubsub/manager.rs: PubSubManager::remove_session", "engine/src/pubsub/manager.rs: PubSubManager::get"]}
{"id": "C94", "title": "Exactly one of concurrent subscribers is given a subscription", "statement": "However calls from several threads are interleaved, at every moment at most one subscribe to a key has been answered with a subscription, and one has as soon as any subscribe to the key has returned.", "quantifier": "any number of threads, every interleaving, every key, every assignment of entries to locks", "why_tests_cant": "interleavings are unbounded", "anchors": ["engine/src/pubsub/manager.rs: PubSubManager::subscribe"]}
{"id": "C95", "title": "Publish/subscribe calls never block each other for good", "statement": "From every state that any interleaving of calls from several threads can reach, all calls can still be completed.", "quantifier": "any number of threads, every interleaving, every assignment of entries to locks", "why_tests_cant": "deadlocks show up only under particular schedules", "anchors": ["engine/src/pubsub/manager.rs: PubSubManager::subscribe", "engine/src/pubsub/manager.rs: PubSubManager::unsubscribe"]}
{"id": "C96", "title": "Subscriptions are open and not shared, also with several threads", "statement": "At every moment of every interleaving of calls from several threads, a subscription that get would find is open and belongs to no other session and no other key.", "quantifier": "any number of threads, every interleaving, every assignment of entries to locks", "why_tests_cant": "interleavings are unbounded", "anchors": ["engine/src/pubsub/manager.rs: PubSubManager::subscribe", "engine/src/pubsub/manager.rs: PubSubManager::remove_session"]}
{"id": "C97", "title": "A call that does not fit into a request does nothing", "statement": "A client call that needs more arguments than a request can hold (255 in a debug build, 256 in a release build) fails without changing a key or a counter, and the server backend sends nothing for it. If it is a call that would be accepted with fewer arguments it panics, except that set reports too many arguments when the list, map or set given has 255 items or entries modulo 256. In a release build a call of exactly 256 arguments is carried out like any other, except that set reports too many arguments.", "quantifier": "all calls and argument lists of any length, all databases, both build modes, all connections; counters of the statistics that can still count (what happens otherwise: C182)", "why_tests_cant": "argument lists are unbounded, and the behaviour depends on the length modulo 256 and on the build mode", "anchors": ["client/src/backend/memory.rs: MemoryBackend::append", "client/src/backend/memory.rs: MemoryBackend::set", "client/src/backend/server.rs: ServerBackend::append", "client/src/backend/server.rs: ServerBackend::set", "engine/src/command/request/builder.rs: RequestBuilder::push_argument", "engine/src/command/request/builder.rs: RequestBuilder::value"]}
{"id": "C98", "title": "Awaiting a request makes exactly the call that was configured, once", "statement": "A chain of calls on the client (say increment(k).int().by(5)) never panics and is refused only by exists().keys(..) and is(t).keys(..), for no keys or more than 255. Configuring a request has no effect. With any backend, polling the request any number of times is polling the one backend call the chain asks for, with the last amount given (1 if none) and the last type named: same answers, same effects, except that an answer of another type than the chain names is a panic. Polls after the end panic without an effect. With the in-memory backend the first poll completes the call.", "quantifier": "all chains and arguments, all backends (any state machine), any number of polls, all databases", "why_tests_cant": "backends, polling patterns and chains are unbounded", "anchors": ["client/src/lib.rs: Client::get", "client/src/lib.rs: Client::increment", "client/src/request/get/mod.rs: GetUnconfigured::poll", "client/src/request/set/mod.rs: SetUnconfigured", "client/src/request/increment/increment_int.rs: IncrementInteger::by", "client/src/request/length.rs: Length::poll", "client/src/request/exists.rs: Exists::keys", "client/src/request/is.rs: IsConfigured::poll"]}
{"id": "C99", "title": "Naming a type for a request panics exactly if it has been polled", "statement": "get, increment and decrement requests can be polled as they are or be given a type; giving a type panics if and only if the request has been polled at least once.", "quantifier": "all backends, keys, types and numbers of polls", "why_tests_cant": "the number of polls is unbounded", "anchors": ["client/src/request/get/mod.rs: GetUnconfigured::bool", "client/src/request/increment/mod.rs: Increment::int", "client/src/request/decrement/mod.rs: Decrement::int"]}
{"id": "C100", "title": "Client::connect reports a failed connection as an error", "statement": "Connecting resolves to a client if the connection is established and to the error otherwise.", "quantifier": "all outcomes of connecting", "why_tests_cant": "needs network failures of every kind", "anchors": ["client/src/lib.rs: Client::connect", "client/src/backend/server.rs: ServerBackend::connect"]}
{"id": "C101", "title": "Every command finishes whatever other clients do", "statement": "For each request there is a fixed number of rounds after which it has finished, whatever requests other clients issue at the same time and however they interleave.", "quantifier": "all requests, all concurrent requests, all interleavings, all databases", "why_tests_cant": "the interleavings are unbounded in number and length", "anchors": ["engine/src/state/mod.rs: State::key_or_insert_with", "engine/src/command/impl/increment.rs: Increment::dispatch"]}
{"id": "C102", "title": "A command is delayed only by concurrent removals of its key", "statement": "If at most B of the requests running at the same time remove the key a command names first (Delete, Rename and Set do), the command finishes after at most 2B + 6 operations of its own plus one for each argument, under every interleaving, and its loop takes at most B + 2 rounds. This is exact: B + 1 Deletes can make an Increment on a missing key take more than B + 2 rounds. Likewise a client never waits for ever if the other clients issue only finitely many requests that remove its keys.", "quantifier": "all commands, all concurrent requests and (adaptive) clients, all interleavings, all databases", "why_tests_cant": "the interleavings are unbounded in number and length", "anchors": ["engine/src/state/mod.rs: State::key_or_insert_with", "engine/src/hop.rs: Hop::dispatch"]}
{"id": "C103", "title": "Concurrent creation can lose any commands but one", "statement": "When any number of clients add to one missing key at the same time (counter commands, or Appends naming one type), every outcome C90 allows does occur: for every order of the commands, and every number of them less than all, there is an interleaving in which all finish and exactly the commands after that number are in effect. So n concurrent Increments can leave exactly the values 1 to n.", "quantifier": "all numbers of clients, all such commands, all orders, all databases without the key; counters of the statistics that can still count (what happens otherwise: C182); keys that are not internal and (in debug builds) not empty", "why_tests_cant": "the witness interleaving depends on the number of clients, which is unbounded", "anchors": ["engine/src/state/mod.rs: State::key_or_insert_with", "engine/src/command/impl/increment.rs: Increment::dispatch", "engine/src/command/impl/append.rs: Append::dispatch"]}
{"id": "C104", "title": "Questions about several keys are answered as of one moment", "statement": "Exists and Is with several keys answer what is true at one moment while they are executed, whatever other clients do at the same time.", "quantifier": "all keys, all concurrent requests, all interleavings, all databases; counters of the statistics that can still count (what happens otherwise: C182)", "why_tests_cant": "the interleavings are unbounded in number", "anchors": ["engine/src/command/impl/exists.rs: Exists::dispatch", "engine/src/command/impl/is.rs: Is::dispatch"]}
{"id": "C105", "title": "Questions about several keys are answered key by key", "statement": "Exists and Is look at their keys in order, each at one moment, and stop at the first that is missing (or of another type). They answer true exactly if each key fitted at its moment; they answer false exactly if a key did not fit at its moment after all keys before it had fitted at theirs.", "quantifier": "all keys, all concurrent requests, all interleavings, all databases; counters of the statistics that can still count (what happens otherwise: C182)", "why_tests_cant": "the interleavings are unbounded in number", "anchors": ["engine/src/command/impl/exists.rs: Exists::dispatch", "engine/src/command/impl/is.rs: Is::dispatch"]}
{"id": "C106", "title": "Half-done modifications are never seen", "statement": "Let every access to a key or to a counter be spread out in time: its lock (which may also guard other entries) is acquired, shared for reading or exclusive for modifying, the entry goes through any number of intermediate states, the lock is dropped, and other requests run in between. When all requests have finished, answers, keys and counters are those of an execution in which each access is one step; at every moment keys and counters that are not just being modified hold what they hold in such an execution, and what is read under a shared lock does not change. Conversely every such execution is possible.", "quantifier": "all requests, all assignments of locks to keys and counters, all intermediate states, all interleavings, all databases", "why_tests_cant": "interleavings and intermediate states are unbounded", "anchors": ["engine/src/state/mod.rs: State::key_ref", "engine/src/state/mod.rs: State::key_mut", "engine/src/state/mod.rs: State::key_or_insert_with", "engine/src/command/impl/append.rs: Append::bytes", "lib/metrics/src/lib.rs: Writer::increment"]}
{"id": "C107", "title": "Concurrent commands never deadlock", "statement": "A request that has not finished can take a step, or it waits for the lock of its key or counter, held by another request that can drop it in its next step. From every situation all requests can still finish.", "quantifier": "all requests, all assignments of locks to keys and counters, all situations", "why_tests_cant": "the situations are unbounded in number", "anchors": ["engine/src/state/mod.rs: State::key_mut", "engine/src/hop.rs: Hop::dispatch"]}
{"id": "C108", "title": "Different errors read differently", "statement": "Two refusals of a CLI line with the same text are the same refusal, quoting the same argument, command or key and naming the same type. Two errors of the in-memory backend with the same text are the same error, apart from a quoted value. Two errors of the TCP backend with the same text are the same, apart from the I/O error inside. Two errors of the CLI library with the same text have the same cause, or backend causes with the same text. The engine's refusals are answered by the CLI with different texts.", "quantifier": "all errors, all quoted texts and numbers", "why_tests_cant": "texts and numbers are unbounded; a quoted text may contain any part of a message", "anchors": ["cli/lib/src/parse.rs: ParseError", "client/src/backend/memory.rs: Error", "client/src/backend/server.rs: Error", "cli/lib/src/process.rs: ProcessError", "engine/src/command/error.rs: Error", "engine/src/command/request/builder.rs: RequestBuilderError"]}
{"id": "C109", "title": "Errors report what caused them", "statement": "An error that contains another error returns it as its source.", "quantifier": "all errors of both client backends, of parsing and of the CLI library", "why_tests_cant": "errors carry arbitrary errors", "anchors": ["client/src/backend/memory.rs: Error::source", "client/src/backend/server.rs: Error::source", "cli/lib/src/process.rs: ProcessError::source", "cli/lib/src/parse.rs: ParseError"]}
{"id": "C110", "title": "Conversions keep what they are given", "statement": "A bool, byte vector, f64, i64, vector of byte vectors, map, set or string converted to a value is what the accessor for its type returns; every value is the conversion of exactly one of them. Converted to a response and encoded it is decoded to that value, within the limits of the wire format; converted errors are decoded to those errors.", "quantifier": "all inputs, both build modes", "why_tests_cant": "inputs are unbounded", "anchors": ["engine/src/state/value.rs: From implementations of Value", "engine/src/command/response/mod.rs: From implementations of Response"]}
{"id": "C111", "title": "What a command may answer while others are at work", "statement": "Whatever other threads do to the database, a request that finishes is answered only in a way its command promises. A request that is wrong in itself (no key, a missing or unreadable argument, a type that is required, not expected or not supported) gets exactly the error that says so, after a single operation that changes no key. Any other request gets one of the few errors of its command, or a value of the promised form: Append something ending in what was appended, Set the value given, Delete and Rename the name, Echo its arguments, counters a number, Length a size, Type a type, Stats statistics, Exists and Is a boolean; where a type is requested the value has it.", "quantifier": "every request, every behaviour of any number of other threads, every schedule and database; counters of the statistics that can still count (what happens otherwise: C182)", "why_tests_cant": "The behaviours of other threads between two operations of a command cannot be enumerated.", "anchors": ["engine/src/hop.rs:170-197", "engine/src/command/impl"]}
{"id": "C112", "title": "Client calls from several threads behave like the engine commands they stand for", "statement": "Any number of threads make calls on one in-memory client. At every moment of every interleaving the keys and statistics are those the engine would have after serving, under the same interleaving, the commands the calls stand for; a call has resolved exactly if its command has been answered, and to that answer (if it is within the limits of a response). A refused call resolves at once and does nothing. In particular no increment of an existing counter is lost, and each resolves to a running total.", "quantifier": "every list of calls, every schedule, all stored data; counters of the statistics that can still count (what happens otherwise: C182)", "why_tests_cant": "Interleavings of unboundedly many threads.", "anchors": ["client/src/backend/memory.rs:86-384"]}
{"id": "C113", "title": "A range of arguments is the arguments in the range", "statement": "Asking a request for a range of its arguments gives an iterator over exactly the arguments whose indices lie within the range, in order, and its len() is their number.", "quantifier": "every request, every range, debug and release builds", "why_tests_cant": "Ranges are pairs of arbitrary bounds; tests take the full range.", "anchors": ["engine/src/command/request/mod.rs:95-157"]}
{"id": "C114", "title": "What a range of arguments is, exactly", "statement": "A request without arguments gives no iterator. A range that does not end before it starts gives the arguments in it; one that does, like 2..1, gives every argument from its start on. len() is the first index after the range wherever it starts, however many arguments there are and however many were taken. Bounds that lead beyond usize::MAX make debug builds panic. The lists of arguments the commands see are those the iterator goes through.", "quantifier": "every request, every range, debug and release builds", "why_tests_cant": "Ranges are pairs of arbitrary bounds; tests take the full range.", "anchors": ["engine/src/command/request/mod.rs:95-157"]}
{"id": "C115", "title": "A line is one call of the backend, whatever the backend", "statement": "The CLI library processes a line with a client over any backend. Polling it is polling the one call of the backend the line stands for: it waits while the call waits, and then gives the text for the result, an explanation for an error of the in-memory backend, and any other error as it is. Lines that stand for no call, or cannot be parsed, never touch the backend. With the in-memory backend this is what C72 to C74 are about.", "quantifier": "every backend (any state machine), every line of at most 255 arguments, any number of polls", "why_tests_cant": "Backends and their behaviour over time are arbitrary; tests use one.", "anchors": ["cli/lib/src/process.rs:110-334"]}
{"id": "C116", "title": "Nothing works over TCP", "statement": "Any number of clients make any calls through the TCP backend, one after the other, at the same time, over connections that may fail at any point, while the server processes what they send and answers whatever it answers. No stored key ever changes, and every call ends in an error or a panic.", "quantifier": "all calls with any number of arguments, all sequences of calls, all connections and server answers, all interleavings", "why_tests_cant": "Ranges over all programs of all clients and all schedules.", "anchors": ["client/src/backend/server.rs:117-399", "server/src/main.rs:46-119"]}
{"id": "C117", "title": "What guards protect, and when they block for ever", "statement": "Users of the library can keep the guards that key_ref, key_mut and key_or_insert_with return while they go on calling. At every moment two guards of keys that share a lock are both shared, and the key of every guard exists. While a thread keeps a guard of a key nothing other threads do changes the key's entry; if the guard is shared neither does the holder. Through a guard a thread reads what is stored, and so what it last wrote, whatever others did since. Threads that wait for locks held among themselves wait for ever, whatever others do. If threads ask for locks only in increasing order, or only while they hold no guard, then at every moment one of them can go on and all of them can come to their end.", "quantifier": "all programs of any number of threads (with data-dependent behaviour), all assignments of keys to locks, all databases, all schedules", "why_tests_cant": "Deadlocks depend on schedules and on how keys hash to shards.", "anchors": ["engine/src/state/mod.rs:70-209", "engine/src/hop.rs:219-223"]}
{"id": "C118", "title": "Commands dispatched while guards are held", "statement": "A thread that holds an exclusive guard of a key and dispatches a well-formed command on that key, or on any key that shares its lock, never gets an answer: the command panics at once or the thread waits for ever. With a shared guard this is so for Delete and for Set with a key type. If no guard held by anyone shares a lock with a key the command names, it is carried out as if it were alone (others being idle). Threads that dispatch commands only while they hold no guard cannot wait for ever because of that.", "quantifier": "all requests, all guards, all assignments of keys to locks, all other threads, all schedules", "why_tests_cant": "The blocking depends on hashing; a test that meets it hangs.", "anchors": ["engine/src/hop.rs:170-197", "engine/src/state/mod.rs:70-209"]}
{"id": "C119", "title": "A dropped metrics instance is gone", "statement": "Readers and writers of a metrics instance are used by several threads. Once the instance has been dropped, every call made afterwards says so: valid() and writes answer false, reads nothing.", "quantifier": "all calls of any number of threads, all schedules", "why_tests_cant": "Depends on a call being half-way when the instance is dropped.", "anchors": ["lib/metrics/src/lib.rs:181-257"]}
{"id": "C120", "title": "Metrics written and read by several threads", "statement": "Every call of a reader or writer takes effect at one moment between its beginning and its end and answers for that moment. At every moment a counter shows a number of increments that includes all that have returned true and besides them only some that have begun (up to 64 bits); a read shows at least the increments that returned before it began and at most those begun before it ended. A gauge shows a value of a call that has begun, and the value of the last call if calls do not overlap. Calls are refused, and valid() is false, only at moments at which the instance is gone and no call is under way.", "quantifier": "all calls of any number of threads, all schedules, debug and release builds", "why_tests_cant": "Lost updates need particular interleavings.", "anchors": ["lib/metrics/src/lib.rs:92-257"]}
{"id": "C121", "title": "A snapshot of metrics is of one moment", "statement": "A snapshot of a metrics instance shows all counters and gauges as they were at one moment while it was taken.", "quantifier": "all calls of other threads, all schedules, all assignments of keys to locks", "why_tests_cant": "Depends on writes between the locks of different shards.", "anchors": ["lib/metrics/src/lib.rs:148-153"]}
{"id": "C122", "title": "What a snapshot of metrics shows", "statement": "Every counter in a snapshot includes all increments that returned before the snapshot was begun, and none that began after it was finished; every gauge has a value it had meanwhile. While a snapshot is being taken the instance has not been dropped, and no write and no question whether the instance still exists has been refused.", "quantifier": "all calls of other threads, all schedules, all assignments of keys to locks", "why_tests_cant": "Depends on writes between the locks of different shards.", "anchors": ["lib/metrics/src/lib.rs:148-153"]}
{"id": "C123", "title": "Values moved about by several clients are accounted for", "statement": "While any number of clients concurrently read, delete and rename, every value that was stored at first is at every moment in exactly one place: stored unchanged at one key, underway in one unfinished Rename, or dropped by one call, which is a Delete, or a Rename to the same key as another Rename, and does not report an error; each such call drops at most one value. Nothing else is stored. So if nobody deletes and no two Renames have the same target, in the end every value is stored at exactly one key.", "quantifier": "any number of clients, all interleavings, all databases; counters of the statistics that can still count (what happens otherwise: C182)", "why_tests_cant": "Needs interleavings between the four separate accesses of each Rename.", "anchors": ["engine/src/command/impl/rename.rs:7-32", "engine/src/command/impl/delete.rs:7-24"]}
{"id": "C124", "title": "Stored values come from somewhere, and no command counts twice", "statement": "While any number of clients concurrently issue any commands, everything stored at any moment is what some key held at first, or the default value of a type given to a missing key by a counter command, Append or Set, as changed one after another by counter commands, Appends and Sets that do not report an error, each as if executed alone on the value it met. No command has changed a value twice or changed two values, and no value that was stored at first is found at two keys, nor have two been made of it. At a key that is not the target of a Rename all this is due to commands naming the key. So an integer to which only Increments are applied never exceeds what it was plus their number, whatever else happens to its key.", "quantifier": "any number of clients, all commands, all interleavings, all databases, both build profiles; counters of the statistics that can still count (what happens otherwise: C182)", "why_tests_cant": "Double counting or invented values would need particular interleavings of retries, creations and moves.", "anchors": ["engine/src/state/mod.rs:169-192", "engine/src/command/impl/rename.rs:7-32", "engine/src/command/impl/append.rs:15-76", "engine/src/command/impl/set.rs:11-150", "engine/src/command/impl/increment_by.rs:8-55"]}
{"id": "C125", "title": "Every command is a single step except for known gaps", "statement": "While any number of clients concurrently issue any commands, the answers, the stored keys and the counters are at every moment those of a machine that executes each command in one indivisible step as if alone, except that: a counter command, Append or Set that finds its key missing stores the default value of its type in a separate step, whatever the key holds by then, and starts over; Set removes the old value in a separate earlier step; Append, Set, Keys and Length without a key type look up the type in a separate earlier step; Rename checks the source, checks the target, takes the value and stores it in four steps; Exists and Is look at one key per step, Stats at one counter per step; and the outcome of every command is counted in a separate last step. The same holds for one command among arbitrary other activity.", "quantifier": "any number of clients, all commands, all interleavings, all databases, both build profiles", "why_tests_cant": "Equality of two machines under every schedule; tests see a few interleavings.", "anchors": ["engine/src/state/mod.rs:60-235", "engine/src/hop.rs:170-197", "engine/src/command/impl/rename.rs:7-32", "engine/src/command/impl/append.rs:15-76", "engine/src/command/impl/set.rs:11-150", "engine/src/command/impl/exists.rs:8-26", "engine/src/command/impl/stats.rs:19-50"]}
{"id": "C126", "title": "After an error a decoder is ready for the next message", "statement": "A request decoder or response decoder that has reported an error treats whatever it is given next as a new decoder does.", "quantifier": "every decoder, every refused message, all bytes given next", "why_tests_cant": "Tests build a new decoder for every message.", "anchors": ["engine/src/command/response/context.rs:97-125", "engine/src/command/response/context.rs:499-526", "engine/src/command/request/context.rs:62-105"]}
{"id": "C127", "title": "What the response decoder refuses, and what it does afterwards", "statement": "A response decoder given bytes in any pieces reports an error exactly if the announced frame has arrived and is of none of the ten types, or is a text that has arrived and is not UTF-8. After the former the decoder treats every frame that has arrived as a new decoder does. After the latter it skips the first nine bytes of whatever it is given and takes as many as the refused text had for a text, asking for more if there are not enough, reporting the same error if they are not UTF-8, and concluding with the text otherwise; only then is it as new.", "quantifier": "every byte buffer, every chunking, all bytes given next, both build profiles", "why_tests_cant": "Needs a decoder used again after an error, with all possible continuations.", "anchors": ["engine/src/command/response/context.rs:97-180", "engine/src/command/response/context.rs:499-526"]}
{"id": "C128", "title": "Clients that act on the answers they get see the same few-step commands", "statement": "While any number of clients each issue any number of commands, every command depending on the answers so far, the stored keys and counters are at every moment, and the answers received are, those of the same clients at the machine of C125, whose commands are single steps with the gaps listed there, and where a client issues its next command at the moment it receives an answer.", "quantifier": "any number of clients, all client behaviours, all commands, all interleavings, all databases, both build profiles", "why_tests_cant": "Equality of two machines under every schedule and every client behaviour.", "anchors": ["engine/src/state/mod.rs:60-235", "engine/src/hop.rs:170-197", "engine/src/command/impl/mod.rs"]}
{"id": "C129", "title": "What the functions of the key space do while guards are held", "statement": "A call of contains_key, key_type or key_ref waits as long as anybody, the caller included, holds an exclusive guard of a key that shares its lock; a call of insert, remove, key_mut or key_or_insert_with as long as anybody holds any such guard. Otherwise contains_key, key_type, insert and remove answer and take effect in one step. key_ref gives a shared and key_mut an exclusive guard if the key exists, and none otherwise. key_or_insert_with, whatever others do, changes nothing but by storing the default until it gets an exclusive guard of the key with the value found; with others idle this is at once, or after storing the default if the key is missing. Through a guard one sees the entry, through an exclusive one one replaces it. For reserved keys, and in debug builds the empty key, the three functions that return guards panic.", "quantifier": "all keys, databases, guards held by any number of threads, assignments of keys to locks; all schedules for key_or_insert_with", "why_tests_cant": "Needs guards held by other threads at the moment of each call.", "anchors": ["engine/src/state/mod.rs:60-209", "engine/src/hop.rs:219-223"]}
{"id": "C130", "title": "When a subscription handle leads to the subscription", "statement": "subscribe and get answer with a weak handle. At every moment upgrading it gives the subscription exactly if get finds that subscription under some key of some session, or a remove_session that is going on has yet to close it, or some user still has an upgraded pointer to it. Once the handles of a subscription lead nowhere they do so for ever.", "quantifier": "all calls of the manager from any number of threads, all things users do with pointers, senders and receivers, all interleavings, all assignments of sessions to locks", "why_tests_cant": "Lifetimes depend on every interleaving of calls with clones and drops elsewhere.", "anchors": ["engine/src/pubsub/manager.rs:17-90", "engine/src/pubsub/mod.rs:8-41"]}
{"id": "C131", "title": "Unsubscribing closes the subscription's channel", "statement": "When an unsubscribe that finds the session subscribed returns, the channel of that subscription is closed, so that sending over it fails and receiving from it ends.", "quantifier": "all interleavings of calls of the manager and of what users do with pointers, senders and receivers", "why_tests_cant": "Depends on what any other thread has kept of the subscription.", "anchors": ["engine/src/pubsub/manager.rs:17-90", "engine/src/pubsub/mod.rs:8-41"]}
{"id": "C132", "title": "When the channel of a subscription is closed", "statement": "The channel of a subscription is closed exactly if at some time so far a user who held something of it closed it, or a remove_session did, or it was abandoned: get did not find the subscription any more, no user had a pointer to it, and users held no sender or no receiver of its channel.", "quantifier": "all interleavings of calls of the manager from any number of threads and of what users do with pointers, senders and receivers", "why_tests_cant": "Needs every history of clones, drops and calls.", "anchors": ["engine/src/pubsub/manager.rs:17-90", "engine/src/pubsub/mod.rs:8-41"]}
{"id": "C133", "title": "Removing a session closes the channels of its subscriptions", "statement": "When a remove_session takes effect get stops finding the session's subscriptions, and when it returns (with true) their channels are closed and stay closed, whatever users hold of them and whatever happens at the same time.", "quantifier": "all interleavings of calls of the manager from any number of threads and of what users do with pointers, senders and receivers", "why_tests_cant": "Calls from other threads can come between the steps of remove_session.", "anchors": ["engine/src/pubsub/manager.rs:17-90", "engine/src/pubsub/mod.rs:8-41"]}
{"id": "C134", "title": "The bound given to the retry loop does not matter", "statement": "The loop that creates missing keys has no bound in the program. Clients that issue any number of requests, each depending on the answers so far, make under any interleaving the same changes and end at the same times with the same answers whatever number of rounds the loop may take, if it is larger than the number of operations each client makes; and no request is given up.", "quantifier": "all clients, all interleavings of any length, all databases, all pairs of bounds above the number of operations of each client", "why_tests_cant": "The number of rounds is unbounded.", "anchors": ["engine/src/state/mod.rs: State::key_or_insert_with"]}
{"id": "C135", "title": "What the guard of an added session protects", "statement": "Adding a session returns a guard of the new entry, which the caller may keep while it goes on using the manager. At every moment no two guards, of two threads or of one, are for sessions that share a lock, so all threads together hold no more guards than the map has locks; the sessions of all guards exist. While a thread keeps a guard nothing other threads do changes or removes its session; through the guard the thread reads the session that is stored, and so what it last wrote. An addition that returns leads to a session with the given token that is stored under the guard's key.", "quantifier": "all programs of any number of threads (with data-dependent behaviour, writing through guards included), all assignments of sessions to locks, all managers, all schedules", "why_tests_cant": "Depends on how threads interleave, on the hashing of the map and on how long callers keep guards.", "anchors": ["engine/src/session/manager.rs: SessionManager::add, SessionManager::remove", "engine/src/session/mod.rs: Session"]}
{"id": "C136", "title": "Removing a session while its guard is kept never returns", "statement": "A thread that removes a session while it keeps the guard of that session, or of any session that shares its lock, never gets an answer, whatever others do. In general threads that wait for locks held among themselves wait for ever.", "quantifier": "all programs of any number of threads, all assignments of sessions to locks, all managers, all schedules", "why_tests_cant": "Depends on how threads interleave, on the hashing of the map and on how long callers keep guards.", "anchors": ["engine/src/session/manager.rs: SessionManager::add, SessionManager::remove", "engine/src/session/mod.rs: Session"]}
{"id": "C137", "title": "A kept guard can stop all additions", "statement": "If a guard is kept whose session shares its lock with the number the next session is to get, and no addition has got past reading that number, then while the guard is kept no addition of any thread returns or panics, not even one of the holder itself: every thread that is adding goes on adding, the next number stays what it is, and nobody is given another guard.", "quantifier": "all programs of any number of threads, all assignments of sessions to locks, all managers, all schedules in which the holder takes no step or is itself adding", "why_tests_cant": "Depends on how threads interleave, on the hashing of the map and on how long callers keep guards.", "anchors": ["engine/src/session/manager.rs: SessionManager::add, SessionManager::remove", "engine/src/session/mod.rs: Session"]}
{"id": "C138", "title": "Threads that call the session manager without keeping guards can always finish", "statement": "If every thread adds and removes sessions only while it keeps no guard, then however the threads have gone on so far, they can go on so that all of them come to their end.", "quantifier": "all programs of any number of threads that make calls only while they keep no guard, all assignments of sessions to locks, all managers, all schedules", "why_tests_cant": "Depends on how threads interleave, on the hashing of the map and on how long callers keep guards.", "anchors": ["engine/src/session/manager.rs: SessionManager::add, SessionManager::remove", "engine/src/session/mod.rs: Session"]}
{"id": "C139", "title": "If every thread gets its turn again and again, all calls end", "statement": "In every infinite execution in which no thread is passed over for ever, there is a moment from which on all have ended: clients issuing requests (each with an answer to every request, if the others issue only finitely many requests that remove its keys), also with locks and half-done modifications, whatever keys and counters share a lock; publish/subscribe calls; threads that keep guards of keys and ask for locks in increasing order only; threads that call the session manager only while they keep no guard.", "quantifier": "all requests, adaptive clients, calls and programs of any number of threads, all assignments of entries to locks, all starting states, all infinite fair executions", "why_tests_cant": "Concerns infinite executions.", "anchors": ["engine/src/hop.rs: Hop::dispatch", "engine/src/state/mod.rs: State", "engine/src/session/manager.rs: SessionManager", "engine/src/pubsub/manager.rs: PubSubManager"]}
{"id": "C140", "title": "Calls sharing a connection do not mix up their requests", "statement": "Any number of tasks make calls on one TCP backend at the same time. As long as the connection takes what is written and no call is dropped, the bytes written to it are at every moment a sequence of whole requests, one for each call that has written its request, in some order and each once, followed by the beginning of the one request being written. All calls that return report that the connection was closed.", "quantifier": "any number of calls with any requests, all interleavings, all ways in which the connection takes the bytes, everything the server may send", "why_tests_cant": "Depends on scheduling and on how the socket splits writes.", "anchors": ["client/src/backend/server.rs: ServerBackend, send_and_wait"]}
{"id": "C141", "title": "A dropped call leaves the connection usable", "statement": "However calls on one connection are dropped, or fail, the bytes written to it are a sequence of whole requests followed by the beginning of one.", "quantifier": "any number of calls with any requests, all interleavings, all moments at which calls are dropped or fail", "why_tests_cant": "Depends on the moment of cancellation and on how the socket splits writes.", "anchors": ["client/src/backend/server.rs: ServerBackend, send_and_wait"]}
{"id": "C142", "title": "Clients that act on answers are served one command after the other", "statement": "Any number of clients each issue any number of commands one after the other, each choosing its next command by the answers it has received; the commands are reads of one key, deletes, and counters and appends on keys that exist and are not deleted meanwhile. At every moment of every execution the commands that have taken effect stand in an order that later moments only extend. Serving them in that order, alone and one after the other, gives the stored keys, and gives each client exactly the answers it has received, and perhaps the one it is waiting for. No client ever waits for another: three operations per command finish a client, whatever the others do.", "quantifier": "any number of clients with any strategies, all interleavings and all moments of them, every database; counters of the statistics that can still count (what happens otherwise: C182)", "why_tests_cant": "Unboundedly many commands chosen by the answers, over all interleavings; that the order only grows relates all executions with each other.", "anchors": ["engine/src/state/mod.rs: Hop::dispatch", "engine/src/command/impl/append.rs", "engine/src/command/impl/increment.rs", "engine/src/command/impl/increment_by.rs", "engine/src/command/impl/decrement.rs", "engine/src/command/impl/decrement_by.rs", "engine/src/command/impl/delete.rs", "engine/src/command/impl/get.rs", "engine/src/command/impl/is.rs", "engine/src/command/impl/exists.rs", "engine/src/command/impl/keys.rs", "engine/src/command/impl/length.rs", "engine/src/command/impl/type.rs"]}
{"id": "C143", "title": "Collections given to set may repeat themselves", "statement": "With the in-memory backend and a key that is neither empty nor reserved, set(key).map(entries) resolves to the map holding for each key the last value given for it exactly if there is at least one entry, there are at most 127 different keys, and every key is below 256 bytes; set(key).set(items) resolves to the items, each once, exactly if there is at least one item, there are at most 254 different ones, and each is below 65536 bytes. Repetitions do not count towards the limits. The collection is then stored, no other key changes, and get(key).map() or get(key).set() resolves to it.", "quantifier": "all keys, all collections below 4 GiB, all stored data, all iteration orders of maps and sets; counters of the statistics that can still count (what happens otherwise: C182)", "why_tests_cant": "Ranges over all collections with any repetitions, including the exact limits.", "anchors": ["client/src/request/set/mod.rs: SetUnconfigured::map, SetUnconfigured::set", "client/src/request/set/set_map.rs", "client/src/request/set/set_set.rs"]}
{"id": "C144", "title": "Tasks sharing an in-memory client, each acting on what its calls came to, are served one call after the other", "statement": "Any number of tasks share one in-memory client, and each makes any number of calls one after the other, choosing its next call by what its calls so far resolved to (a refusal, an error, a result or a panic). The calls that are not refused are reads of one key, deletes, and counters and appends on keys that exist and are not deleted meanwhile. At every moment of every execution the calls that have taken effect stand in an order that later moments only extend. Making the calls in that order in a single task gives the stored keys, and each call comes to exactly what it came to for its task. Three operations per call finish a task, whatever the others do. Calls made in a single task come to what the commands they stand for answer, refused calls change nothing.", "quantifier": "any number of tasks with any strategies, all interleavings and all moments of them, every database; counters of the statistics that can still count (what happens otherwise: C182)", "why_tests_cant": "Unboundedly many calls chosen by earlier results, over all interleavings.", "anchors": ["client/src/backend/memory.rs:86-384", "client/src/request", "engine/src/state/mod.rs: Hop::dispatch"]}
{"id": "C145", "title": "What the TCP backend makes of responses", "statement": "Leave aside how the TCP backend reads responses (which never succeeds, C44 and C67) and let anything hand it a response to the bytes it wants to send. Then every call that is not refused hands over, once, exactly the bytes of the command it stands for (increment without its type), and makes of the value handed back what the in-memory backend makes of it: a value of the promised shape is the result, any other value is a bad response (an unknown type number is reported with its lowest byte), and errors are passed on. In particular, handed the engine's answer to the command, the call resolves to what the in-memory backend gives for that answer.", "quantifier": "all calls up to 255 arguments, all responses, all stored data", "why_tests_cant": "Ranges over everything a server may answer, and the code behind the broken reader cannot be run at all.", "anchors": ["client/src/backend/server.rs:160-399"]}
{"id": "C146", "title": "Adding arguments to a finished request", "statement": "A request turned back into a builder and given more arguments is the request that would have been built with all of the arguments from the start. (False: the builder forgets how many arguments the request had, so the request carries the number of the added ones.)", "quantifier": "all commands that take arguments, key types, up to 255 arguments old and new", "why_tests_cant": "Ranges over all requests and arguments; no test of the project turns a request into a builder.", "anchors": ["engine/src/command/request/builder.rs:277-285", "engine/src/command/request/builder.rs:240-275"]}
{"id": "C147", "title": "What a request turned back into a builder becomes", "statement": "Turned into a builder and back, a request is unchanged. Given n >= 1 more arguments, it shows its old arguments followed by the new ones, but its bytes are a complete request with the first n of all of these arguments, followed by the bytes of the others. So, if it names no key type and no argument reaches 4 GiB, a server takes it for a request before the rest has arrived, and the others are left over.", "quantifier": "all requests, commands that take arguments, up to 255 arguments", "why_tests_cant": "Ranges over all requests and arguments; in the same process the request looks right, the damage shows only on the wire.", "anchors": ["engine/src/command/request/builder.rs:277-285", "engine/src/command/request/builder.rs:240-275"]}
{"id": "C148", "title": "Commands, sessions, subscriptions and metric readers do not disturb each other", "statement": "When threads execute requests, use the session manager, use the publish/subscribe manager and read metrics on one engine at the same time, then at every moment: the publish/subscribe calls have the answers, and the manager the contents, they would have if these calls alone had taken the same steps; likewise for the session calls, the sessions, the next identifier and the number of sessions started; the stored values, all counters but that of started sessions, and the answers to all requests but Stats are what they would be if the requests alone had taken the same steps, and Stats ends at the same step and in the same way.", "quantifier": "all engines, requests, calls, schedules, builds, and distributions of sessions over locks", "why_tests_cant": "Ranges over all interleavings of threads of four kinds; the project has no test that uses two parts of an engine at once.", "anchors": ["engine/src/hop.rs:170-217", "engine/src/session/manager.rs:29-50", "engine/src/pubsub/manager.rs:17-90", "lib/metrics/src/lib.rs:181-250", "engine/src/command/impl/stats.rs:18-42"]}
{"id": "C149", "title": "Counters of an engine used by threads of all kinds", "statement": "At every moment the counters of successful commands, failed commands and started sessions are their initial values plus the number of requests answered with success, of requests answered with an error, and of sessions started so far, and the counter of ended sessions has not changed. Reading a counter takes one step, never waits, and gives the value the counter has at that moment.", "quantifier": "all engines whose counters have room, requests, calls, schedules and builds", "why_tests_cant": "Ranges over all interleavings; a test sees a few schedules and cannot look at the counters at every step.", "anchors": ["engine/src/hop.rs:190-207", "engine/src/session/manager.rs:39", "lib/metrics/src/lib.rs:181-185", "lib/metrics/src/lib.rs:243-250"]}
{"id": "C150", "title": "Users who make one call after the other, as threads that make one call each", "statement": "Users of one engine make calls of all kinds (requests, sessions, subscriptions, reading metrics), one after the other, each chosen in the light of the answers so far. At every moment, if each of the calls were made by a thread of its own, these threads could take steps in such an order that the engine is in the same state, every user's calls have the same answers, and the calls under way have got as far. In that order the calls of one user do not overlap, and every call is the one the user chooses after the answers before.", "quantifier": "all engines, users (any functions from answers to calls), numbers of calls, schedules, builds, distributions of sessions over locks", "why_tests_cant": "Ranges over all users and interleavings. It makes everything proved about threads with one call each hold for users with any number of calls.", "anchors": ["engine/src/hop.rs:147-217", "engine/src/session/manager.rs:29-50", "engine/src/pubsub/manager.rs:17-90"]}
{"id": "C151", "title": "Statistics and subscriptions for users who make calls of all kinds", "statement": "For users as in C150, at every moment: the counters of successful commands, failed commands and started sessions are the initial ones plus the number of calls, among all calls made by all users, answered with success, answered with an error, and that have started a session; the counter of ended sessions has not changed. On a fresh engine, a subscription that get would find is open and belongs to no other session and no other key, and of all subscriptions to one key ever asked for at most one is granted. As long as nobody has removed a session, every session given to a user is stored under the identifier it was given with, and no two calls have been given the same identifier.", "quantifier": "all engines whose counters have room (subscriptions and sessions: all fresh engines), users, numbers of calls, schedules, builds, distributions of sessions over locks", "why_tests_cant": "Ranges over all users and interleavings; the project tests one part of the engine at a time.", "anchors": ["engine/src/hop.rs:170-217", "engine/src/pubsub/manager.rs:17-90", "engine/src/session/manager.rs:39", "lib/metrics/src/lib.rs:243-250"]}
{"id": "C152", "title": "All calls of users who make calls of all kinds end", "statement": "Users of one engine make finitely many calls of all kinds (requests, sessions, subscriptions, reading metrics), one after the other, each chosen in the light of the answers so far. In every infinite execution in which each user gets their turn again and again there is a moment from which on all users have all their answers and make no more calls. A request is not kept from being answered by others, however they interleave, if only finitely many of all calls made remove the key it names first.", "quantifier": "all engines, users who make finitely many calls (any functions from answers to calls), infinite fair schedules, builds, distributions of sessions over locks", "why_tests_cant": "Ranges over infinite executions; a test that does not end cannot show that it never will, and one that ends shows one execution.", "anchors": ["engine/src/hop.rs:147-217", "engine/src/session/manager.rs:29-50", "engine/src/pubsub/manager.rs:17-90", "engine/src/state/mod.rs:169-193"]}
{"id": "C153", "title": "What is stored while users make calls of all kinds", "statement": "For users as in C150, at every moment: what is stored is what the requests among their calls would have stored if each were made by a client of its own and nothing else were going on, and these clients would be answered alike (except that Stats may show other numbers of sessions). So: if no stored map or set contains a repetition at the start, none ever does; a key that exists keeps its type as long as no Set, Delete or Rename of it or Rename to it is made; a key that no request names as a key to change keeps its value; an internal key is as it was or gone, unless a Rename to it is made; in release builds a request panics only if it names an internal key. If all requests only count up and down an existing integer or leave it alone, then whenever no call is under way it is the initial number plus all amounts.", "quantifier": "all engines, users (any functions from answers to calls), numbers of calls, schedules, builds, distributions of sessions over locks; for the sum: a key that is neither internal nor, in debug builds, empty, no overflow in debug builds, and counters of the statistics that can still count (what happens otherwise: C182)", "why_tests_cant": "Ranges over all users and interleavings; the project tests commands one at a time.", "anchors": ["engine/src/hop.rs:170-217", "engine/src/state/mod.rs:60-210", "engine/src/command/impl/increment_by.rs:8-55", "engine/src/session/manager.rs:29-50", "engine/src/pubsub/manager.rs:17-90"]}
{"id": "C154", "title": "The server answers a request once all of it has arrived", "statement": "A TCP client that has sent all bytes of a request and keeps the connection open is sent an answer.", "quantifier": "all byte streams arriving at any number of open connections, all interleavings of arrivals and of the server's tasks; counters of the statistics that can still count (what happens otherwise: C182)", "why_tests_cant": "Concerns what is not sent while a connection stays open; a test closes its connections in the end, and a wait that times out shows nothing.", "anchors": ["server/src/main.rs:82-119"]}
{"id": "C155", "title": "What has been answered on connections that stay open", "statement": "Bytes arrive at any number of connections in any portions at any moments, also depending on answers, and clients hang up when they like. At every moment a connection has been sent exactly one response frame for each command or unreadable input heard in an initial part of what has arrived. When the server has nothing left to do for a connection, this part is all whole lines that have arrived (up to the last newline byte), and everything if the client has hung up; the connection has broken down exactly if an overfull request was heard, and is closed by the server exactly if the client has hung up and it has not. As long as no newline has arrived and the client has not hung up nothing at all is sent. Once nothing more arrives at a connection the server has nothing left to do for it after at most 6 turns for each byte and 12 more, whatever happens at the others. When the server has nothing left to do for any connection, the counters of successful and of failed commands have risen by the numbers of commands answered with a value and with an error over all connections, and the other counters are unchanged. No stored key ever changes.", "quantifier": "all numbers of connections, sequences of events (arrivals, hang-ups, turns of the tasks), databases whose counters can still count, builds", "why_tests_cant": "Ranges over all ways in which bytes can be spread over time and connections.", "anchors": ["server/src/main.rs:64-119", "engine/src/command/request/context.rs:62-206", "engine/src/hop.rs:170-197"]}
{"id": "C156", "title": "Commands on some keys as if nothing else happened", "statement": "Any number of clients issue any number of commands of all kinds, every one depending on the answers so far. Some keys exist at the start and are only read, counted or appended to; the other keys may be set, renamed, deleted and created by anyone at the same time. Then the stored values of these keys, and the answers to the commands on them, are at every moment those of serving only the commands on these keys, one after the other, in an order in which the commands of one client keep theirs; a later moment only adds commands to the end of this order. All commands on these keys that have been answered are in it, and at most one more for each client: the one it is waiting for.", "quantifier": "all clients (functions from past answers to the next request), sets of keys, databases in which they exist and whose counters can still count, schedules of the single engine operations, builds", "why_tests_cant": "Says of every schedule that some order explains all answers, while any other traffic goes on; a test sees a few schedules and would have to guess the order.", "anchors": ["engine/src/hop.rs:170-197", "engine/src/command/impl", "engine/src/state/mod.rs:128-205"]}
{"id": "C157", "title": "Numbers shown of a counter only go up and are not given out twice", "statement": "Clients read a key that holds an integer with Get, or add between 0 and M to it, among any other commands that do not change this key; the most they can add in total stays below 2^63. Every such command is answered with a number. At every moment of every execution: no number shown is above the one stored; a client that was shown a number is later shown at least that number plus what the later command adds; a command issued after some moment is shown at least the number stored at that moment plus what it adds; of any two of these commands one is shown at least the other's number plus what it adds itself. So two commands that both add something are never shown the same number, by whichever clients.", "quantifier": "keys that are neither internal nor, in debug builds, empty; all numbers of clients, adaptive sequences of commands, amounts up to M, databases in which the key holds an integer, schedules, builds; counters of the statistics that can still count (what happens otherwise: C182)", "why_tests_cant": "Read-your-writes, monotonic reads, real-time order and uniqueness over all interleavings.", "anchors": ["engine/src/command/impl/increment.rs", "engine/src/command/impl/increment_by.rs", "engine/src/command/impl/decrement_by.rs", "engine/src/command/impl/get.rs", "engine/src/state/mod.rs:128-205"]}
{"id": "C158", "title": "Contents shown of a key that is appended to only grow", "statement": "Clients read a key that holds bytes, a list or a text with Get, or append to it, among any other commands that do not change this key. At every moment of every execution the answers show contents (as whole response frames if they fit into a response) such that: the stored content is each of them with perhaps more appended; a client that was shown some content is later shown it with perhaps more appended and then its own items; a command issued after some moment is shown what was stored at that moment, with perhaps more appended, and then its own items; and of any two of these commands, one is shown what the other is shown, with perhaps more appended, and then its own items.", "quantifier": "keys that are neither internal nor, in debug builds, empty; all numbers of clients, adaptive sequences of commands, items, databases in which the key holds appendable content, schedules, builds; counters of the statistics that can still count (what happens otherwise: C182)", "why_tests_cant": "Ranges over all interleavings of clients that react to what they see.", "anchors": ["engine/src/command/impl/append.rs", "engine/src/command/impl/get.rs", "engine/src/state/mod.rs:128-205"]}
{"id": "C159", "title": "Calls of an in-memory client on some keys as if nothing else happened", "statement": "Any number of tasks share one in-memory client, and each makes any number of calls of all kinds, every one depending on what its calls so far came to. Some keys exist at the start and are only read, counted or appended to; the other keys may be set, renamed, deleted and created by anyone at the same time. At every moment of every execution, the stored values of these keys and what the calls on them came to are those of making only these calls, one after the other in a single task, in an order in which the calls of one task keep theirs; a later moment only adds calls to the end of this order. It contains all of these calls that have come to something, and at most one more for each task: the one it is waiting for.", "quantifier": "all tasks (functions from what the calls came to so far to the next call), sets of keys, databases in which they exist and whose counters can still count, schedules, builds", "why_tests_cant": "Says of every schedule that some order explains all results, while any other traffic goes on.", "anchors": ["client/src/backend/memory.rs", "engine/src/hop.rs:170-197", "engine/src/command/impl", "engine/src/state/mod.rs:128-205"]}
{"id": "C160", "title": "Numbers an in-memory client gives of a counter only go up and are not given out twice", "statement": "Tasks share an in-memory client; some of their calls, not refused by it, get a key that holds an integer or add between 0 and M to it, and their other calls do not change this key; the most that can be added in total stays below 2^63. Each of these calls resolves to a number. At every moment of every execution: no number is above the one stored; a task that was given a number is later given at least that number plus what the later call adds; a call made after some moment resolves to at least the number stored at that moment plus what it adds; of any two of these calls one resolves to at least the other's number plus what it adds itself.", "quantifier": "all numbers of tasks, adaptive sequences of calls, amounts up to M, databases in which the key holds an integer, schedules, builds; counters of the statistics that can still count (what happens otherwise: C182)", "why_tests_cant": "Read-your-writes, monotonic reads, real-time order and uniqueness over all interleavings.", "anchors": ["client/src/backend/memory.rs", "client/src/request/increment", "client/src/request/get", "engine/src/command/impl/increment.rs", "engine/src/command/impl/increment_by.rs", "engine/src/state/mod.rs:128-205"]}
{"id": "C161", "title": "Stored values come from somewhere, whatever else users do", "statement": "For users as in C150 (each makes calls of all kinds, requests, counter, session and subscription calls, every one depending on what its calls so far came to), at every moment: everything stored is what some key held at first, or the default value of a type given to a missing key by a counter command, Append or Set, as changed one after another by requests made so far that do not report an error, each as if executed alone on the value it met. No request has changed a value twice or changed two values, and no value stored at first is found at two keys. At a key that is not the target of a Rename all this is due to requests naming the key. So an integer to which only Increments are applied never exceeds what it was plus the number of Increments made, whatever else happens to its key.", "quantifier": "all engines whose counters can still count, users (any functions from answers to calls), numbers of calls, schedules, builds, distributions of sessions over locks", "why_tests_cant": "The requests are not fixed in advance: they depend on answers, which depend on the schedule.", "anchors": ["engine/src/hop.rs:170-217", "engine/src/state/mod.rs:60-210", "engine/src/command/impl"]}
{"id": "C162", "title": "Values that users move about are accounted for", "statement": "If the requests of users as in C150 only read, delete and rename, then at every moment every value that was stored at first is in exactly one place: stored unchanged at one key, underway in one unfinished Rename, or dropped by one request, which is a Delete, or a Rename to the same key as another Rename, and does not report an error; each such request drops at most one value. Nothing else is stored. So if nobody has made a Delete and no two Renames with the same target, then whenever no call is under way every value is stored at exactly one key.", "quantifier": "all engines whose counters can still count, users, numbers of calls, schedules, builds, distributions of sessions over locks", "why_tests_cant": "Conservation over all interleavings of requests that depend on earlier answers.", "anchors": ["engine/src/hop.rs:170-217", "engine/src/command/impl/rename.rs", "engine/src/command/impl/delete.rs", "engine/src/state/mod.rs:60-210"]}
{"id": "C163", "title": "Only one request of all users can take a key", "statement": "If a key exists at first and every request that users as in C150 make deletes it, renames it to another key or does not change it, then at every moment at most one of these Deletes and Renames has ended without an error, and if one has, the key is gone; if a Delete of it has been made, then whenever no call is under way exactly one has.", "quantifier": "all engines whose counters can still count, users, numbers of calls, schedules, builds, distributions of sessions over locks", "why_tests_cant": "Exclusivity over all interleavings, also for users who try again.", "anchors": ["engine/src/hop.rs:170-217", "engine/src/command/impl/rename.rs", "engine/src/command/impl/delete.rs", "engine/src/state/mod.rs:60-210"]}
{"id": "C164", "title": "Appends of users to an existing key keep every item", "statement": "If the requests of users as in C150 append to an existing bytes, list or string key, read it, or only read, count or append to other existing keys, then whenever no call is under way there is an order of all requests made such that the content of the key is its initial content followed by all appended blocks in this order, and every Append has been answered with the content up to and including its own block.", "quantifier": "all engines whose counters can still count, users, numbers of calls, schedules, builds in which the final content fits into a response, distributions of sessions over locks", "why_tests_cant": "Nothing is lost or torn over all interleavings of requests that depend on earlier answers.", "anchors": ["engine/src/hop.rs:170-217", "engine/src/command/impl/append.rs", "engine/src/state/mod.rs:128-205"]}
{"id": "C165", "title": "Publish/subscribe never shows a half-done change", "statement": "Let the accesses of publish/subscribe calls be spread out in time: the locks of a session's or key's entry, and those of the map or set in it, are acquired, shared or exclusive (each may also guard other entries or items), what is locked exclusively goes through any intermediate states, the locks are dropped, and other calls run in between. When all calls have returned, their answers and the state are those of an execution in which each access is one step. At every moment there is such an execution after which calls between two accesses are at the same point with the same answers, entries nobody has locked exclusively exist or not as in it, items in them that nobody is just removing are as in it, and the same subscriptions are closed. Conversely every such execution is possible.", "quantifier": "all calls of any number of threads, all assignments of entries and items to locks, all intermediate states, all interleavings", "why_tests_cant": "Interleavings and intermediate states are unbounded.", "anchors": ["engine/src/pubsub/manager.rs: PubSubManager::subscribe", "engine/src/pubsub/manager.rs: PubSubManager::unsubscribe", "engine/src/pubsub/manager.rs: PubSubManager::get", "engine/src/pubsub/manager.rs: PubSubManager::remove_session"]}
{"id": "C166", "title": "Publish/subscribe calls never deadlock", "statement": "With locks as in C165, at every moment of every execution a call that has not returned can go on or waits for a lock held by another call; following whom one call waits for after another, one comes within three calls to one that can go on. From every situation all calls can still return, and they do if none that can go on is passed over for ever.", "quantifier": "all calls of any number of threads, all assignments of entries and items to locks, all situations that occur, all infinite fair executions", "why_tests_cant": "Concerns all situations and infinite executions.", "anchors": ["engine/src/pubsub/manager.rs: PubSubManager::subscribe", "engine/src/pubsub/manager.rs: PubSubManager::unsubscribe", "engine/src/pubsub/manager.rs: PubSubManager::remove_session"]}
{"id": "C167", "title": "The session manager never shows a half-done change", "statement": "Let additions and removals of sessions, and writes through kept guards, take time: locks are acquired, entries being changed go through any intermediate states, and other threads run in between. Whenever nobody is in the middle of a change, the situation is one of an execution in which each access is made at one moment. At every moment there is such an execution after which all threads are at the same point, the next number and the metrics are the same, all sessions nobody is just changing are the same, and those being changed are still as they were found. Conversely every such execution is possible.", "quantifier": "all programs of any number of threads that add, remove, keep guards, read, write and drop them (with data-dependent behaviour), all assignments of sessions to locks, all managers, all intermediate states, all interleavings", "why_tests_cant": "Interleavings and intermediate states are unbounded.", "anchors": ["engine/src/session/manager.rs: SessionManager::add", "engine/src/session/manager.rs: SessionManager::remove"]}
{"id": "C168", "title": "Who waits for whom in the session manager", "statement": "With locks as in C167: threads that wait for locks of each other's guards wait for ever, whatever others do. If every thread adds and removes only while it keeps no guard, then from every situation all threads can come to their end, and they do if none that can go on is passed over for ever.", "quantifier": "all programs of any number of threads, all assignments of sessions to locks, all managers, all situations that occur, all infinite fair executions", "why_tests_cant": "Concerns all situations and infinite executions.", "anchors": ["engine/src/session/manager.rs: SessionManager::add", "engine/src/session/manager.rs: SessionManager::remove"]}
{"id": "C169", "title": "Metrics never show a half-done change", "statement": "Let the accesses of metrics calls take time: writers hold the lock of a counter or gauge exclusively while it goes through any intermediate states, readers and snapshots hold locks shared, and other calls run in between. Whenever no lock is held the situation is one of an execution in which each access is made at one moment. At every moment there is such an execution after which all calls are at the same point with the same answers, the instance exists or not as in it, the counters and gauges nobody is just changing are the same, and those being changed are still as they were found. Conversely every such execution is possible.", "quantifier": "all calls of any number of threads, all names, all assignments of names to locks, all intermediate states, all interleavings, both build modes", "why_tests_cant": "Interleavings and intermediate states are unbounded.", "anchors": ["lib/metrics/src/lib.rs: Writer::increment", "lib/metrics/src/lib.rs: Writer::gauge", "lib/metrics/src/lib.rs: Reader::counter", "lib/metrics/src/lib.rs: Reader::gauge", "lib/metrics/src/lib.rs: Metrics::snapshot"]}
{"id": "C170", "title": "Metrics calls never deadlock", "statement": "With locks as in C169, at every moment of every execution a call that has not returned can go on or waits for another (for a lock, or to drop the instance while a snapshot is taken); following whom one waits for after another, one comes within two calls to one that can go on. From every situation all calls can return, and they do if none that can go on is passed over for ever. (The owner's calls after it has dropped the instance, which Rust forbids, do not count.)", "quantifier": "all calls of any number of threads, all names, all assignments of names to locks, all situations that occur, all infinite fair executions", "why_tests_cant": "Concerns all situations and infinite executions.", "anchors": ["lib/metrics/src/lib.rs: Writer::increment", "lib/metrics/src/lib.rs: Writer::gauge", "lib/metrics/src/lib.rs: Reader::counter", "lib/metrics/src/lib.rs: Reader::gauge", "lib/metrics/src/lib.rs: Metrics::snapshot"]}
{"id": "C171", "title": "Holders of guards never meet a half-done change", "statement": "Threads use the functions of the key space, keep the guards they return, and dispatch commands meanwhile. Let their accesses take time: locks are acquired, entries held exclusively go through any intermediate states, and other threads run in between. While a thread keeps a guard, no step of another thread changes the entry, not even to an intermediate state. Whenever nobody is in the middle of an access, the situation is one of an execution in which each access is made at one moment. At every moment there is such an execution after which all threads are at the same point with the same guards, the counters and all keys nobody is just accessing exclusively are the same, and the others are still as they were found. Conversely every such execution is possible.", "quantifier": "all programs of any number of threads (with data-dependent behaviour and any number of guards), all assignments of keys to locks, all databases, all intermediate states, all interleavings", "why_tests_cant": "Interleavings and intermediate states are unbounded.", "anchors": ["engine/src/state/mod.rs: State::key_ref", "engine/src/state/mod.rs: State::key_mut", "engine/src/state/mod.rs: State::key_or_insert_with", "engine/src/state/mod.rs: State::insert", "engine/src/state/mod.rs: State::remove", "engine/src/state/mod.rs: State::contains_key", "engine/src/state/mod.rs: State::key_type"]}
{"id": "C172", "title": "When holders of guards come to their end", "statement": "With accesses that take time as in C171: threads each of which needs a lock that a guard of one of them keeps from being taken stay where they are for ever, whatever others do. If every thread asks for locks in increasing order only (for some numbering of the locks; in particular if it keeps no guard when it asks for one), then from every situation all threads can come to their end, and they do if none that can go on is passed over for ever.", "quantifier": "all programs of any number of threads, all assignments of keys to locks, all databases, all situations that occur, all infinite fair executions", "why_tests_cant": "Concerns all situations and infinite executions.", "anchors": ["engine/src/state/mod.rs: State::key_ref", "engine/src/state/mod.rs: State::key_mut", "engine/src/state/mod.rs: State::key_or_insert_with", "engine/src/state/mod.rs: State::insert", "engine/src/state/mod.rs: State::remove", "engine/src/state/mod.rs: State::contains_key", "engine/src/state/mod.rs: State::key_type"]}
{"id": "C173", "title": "Contents an in-memory client gives of a key that is appended to only grow, by whole appends", "statement": "Tasks share an in-memory client; some of their calls, not refused by it, read a key that holds bytes, a list or a text, or append to it, and their other calls do not change this key. Each of these calls stands for a content, and resolves to it as a whole if it fits into a response. At every moment of every execution: the stored content is each of these contents, perhaps with more appended; a task that was given a content is later given it with perhaps more appended and then the later call's own items; a call made after some moment resolves to what was stored at that moment, with perhaps more appended, and then its own items; of any two of these calls one resolves to the other's content, with perhaps more appended, and then its own items.", "quantifier": "keys that are neither internal nor, in debug builds, empty; all numbers of tasks, adaptive sequences of calls, items, databases in which the key holds appendable content, schedules, builds; counters of the statistics that can still count (what happens otherwise: C182)", "why_tests_cant": "Ranges over all interleavings of tasks that react to what their calls resolve to.", "anchors": ["client/src/backend/memory.rs", "client/src/request/append", "client/src/request/get", "engine/src/command/impl/append.rs", "engine/src/command/impl/get.rs", "engine/src/state/mod.rs:128-205"]}
{"id": "C174", "title": "Slow readers and failing connections change only the pace of the server", "statement": "What is in transit takes up room: the server waits in the middle of an answer until its client reads, clients wait until the server takes up what they send, and reading and writing may fail at any time. Whatever the sizes, at every moment the server's database, what it has taken up and what clients have read of its answers are as in an execution without such limits, of which clients have read a beginning: the response frames to what is heard in an initial part of what they managed to send. When there is nothing left to do on a connection that has not failed, its client has read exactly the responses to the whole lines it sent (and to the last, unfinished line only if it has hung up). Conversely, with room for one byte of the answers and for what arrives, everything that can happen without limits can happen.", "quantifier": "all numbers of connections, bytes, sizes of the room (for exactness at the end, at least one byte for the answers), databases whose counters can still count, and orders of events (sending, reading, turns, hang-ups, failures), builds", "why_tests_cant": "Needs clients that stop reading at every possible byte, and all orders of events.", "anchors": ["server/src/main.rs:82-119"]}
{"id": "C175", "title": "A client that reads is answered, whatever the other clients do", "statement": "In every infinite execution in which the server does not pass over a connection for ever, its client goes on reading, and it does not fail: once the client has sent its last byte, there comes a moment from which on everything it sent is answered and read, even if the clients of all other connections never read and their tasks wait for ever. From then on it can send again whatever there is room for, unless it has hung up or the connection has broken down.", "quantifier": "all infinite fair executions, numbers of connections, sizes of the room (at least one byte for the answers), databases, behaviours of the other clients (not reading, hanging up, failing), builds; counters of the statistics that can still count (what happens otherwise: C182)", "why_tests_cant": "A liveness property about infinite executions with clients that block for ever.", "anchors": ["server/src/main.rs:82-119"]}
{"id": "C176", "title": "A client that sends everything before it reads may wait for ever", "statement": "A client that sends lines each of which is answered, and reads nothing meanwhile, does not get further than the room for what it sends, and one line more than there is room for bytes of the answers. So however much room there is, there is something (a list of lines) that no client can send as a whole before it starts reading, in any execution.", "quantifier": "all sizes of the room, databases, numbers of connections, executions of any length, builds", "why_tests_cant": "A claim that something never happens, for every size of the system's buffers.", "anchors": ["server/src/main.rs:82-119"]}
{"id": "C177", "title": "Exactly how many bytes the response decoder asks for", "statement": "Given any bytes in any chunking, the decoder asks for the bytes that the 4-byte header lacks, then for those that the announced frame lacks (so, of a written response, for exactly the rest of the frame). Within a frame whose contents are longer than its header announces it asks for one byte of a boolean, number or error, for what an item of a list or its size, bytes, a string, or the size of a key of a map or of an item of a set lack, and for more than that, by an exactly stated number, if an item of a set, or a key, the size of a value, or a value of a map lack bytes. For a count field that has not arrived it asks for one more than the size of the field, less the number of bytes that are there, modulo 2^64 (in debug builds it panics if that is negative, C51). In all other cases it asks for nothing.", "quantifier": "every byte buffer, every chunking, both build profiles", "why_tests_cant": "An exact formula for every byte buffer; what is asked for within malformed frames depends on positions in the buffer.", "anchors": ["engine/src/command/response/context.rs:127-534"]}
{"id": "C178", "title": "When the response decoder asks for zero bytes", "statement": "The decoder asks for zero more bytes, with which it cannot get any further, exactly if it is given five bytes which announce a frame of at most one byte and whose type is bytes or string.", "quantifier": "every byte buffer, both build profiles", "why_tests_cant": "An if-and-only-if over all byte buffers.", "anchors": ["engine/src/command/response/context.rs:127-534"]}
{"id": "C179", "title": "The response decoder asks for no more bytes than it needs", "statement": "If the decoder asks for n bytes, then with fewer than n bytes more it would still ask for bytes.", "quantifier": "every byte buffer, every extension, both build profiles", "why_tests_cant": "Asking for too much makes clients wait for ever, for bytes that are never sent.", "anchors": ["engine/src/command/response/context.rs:127-534"]}
{"id": "C180", "title": "Exactly what the response decoder concludes with", "statement": "Given any bytes in any chunking, the decoder concludes with a response exactly if the 4-byte header and as many bytes as it announces are there, and the bytes after the header begin with a layout of that response (whatever follows, and whether or not it lies within the announced frame): any nonzero byte is the boolean true; bytes announced to be empty are refused in debug builds and read in release builds; a list or set announced to be empty has one item, a map announced to be empty has none; sets and maps are read until they have as many different items or keys as announced, and of entries with the same key the last one counts. No bytes are the layouts of two different responses.", "quantifier": "every byte buffer, every chunking, every response, both build profiles", "why_tests_cant": "An if-and-only-if over all byte buffers, including those that no server writes; round-trip tests see only what the writers produce.", "anchors": ["engine/src/command/response/context.rs:127-534"]}
{"id": "C181", "title": "Connections that fail or whose clients do not read leave no command half done", "statement": "Whenever the server can do nothing for any of its connections until something arrives or is read, be it because everything is done, because clients do not read the answers, or because reading or writing has failed in the middle of an answer: every command heard in the whole lines it has taken up, on any connection, has been finished and counted exactly once, as successful or as failed by how it was answered, of the answers the clients have read a beginning, and no other counter has changed. (If the client has hung up or the connection has broken down, in all it has taken up.)", "quantifier": "every number of connections, every room for what is in transit, every list of sends, reads, hangups, failures and turns; databases whose counters can still count", "why_tests_cant": "Connections fail at any byte of any answer while others are at work; tests cannot cut connections everywhere.", "anchors": ["server/src/main.rs:82-119", "engine/src/hop.rs:170-197"]}
{"id": "C182", "title": "The counters of the statistics are of no consequence", "statement": "What requests do to the stored keys does not depend on how many commands have been counted before, at no moment of any interleaving of any requests and in neither build, not even when the counters are at the end of their 64 bits. Nor do the answers to requests other than Stats, except that in a debug build a request whose outcome cannot be counted any more panics, and then only after it has done its work. What is said of errors (C21, C53), of internal keys (C30, C57), of Set (C52) and of the By counters (C55) therefore holds whatever the counters are.", "quantifier": "every set of requests, every interleaving, all stored keys, all values of the counters, both build profiles", "why_tests_cant": "Counters near 2^64 are never reached in tests, and tests cannot compare all interleavings.", "anchors": ["engine/src/hop.rs:170-197", "lib/metrics/src/lib.rs:243-250"]}
{"id": "C183", "title": "Guards of keys and of sessions kept together", "statement": "Users of the library can keep guards of keys and guards of sessions of the same engine while they go on using both parts of it. At every moment two guards of keys that share a lock are both shared, no two guards of sessions share a lock, and what they are guards of exists. While a thread keeps a guard nothing other threads do changes or removes the key or the session. Through a guard a thread reads what is stored, and so what it last wrote. Threads that wait for locks held among themselves wait for ever, even if what one waits for is a key and what the next waits for is a session. Threads that use only keys, or only sessions, behave as if the rest of the engine did not exist, and leave it as it is.", "quantifier": "all programs of any number of threads (with data-dependent behaviour), all assignments of keys and sessions to locks, all engines, all schedules, both build profiles", "why_tests_cant": "Tests exercise a few schedules of few threads; guards of one kind are usually tested without the other.", "anchors": ["engine/src/hop.rs:214-223", "engine/src/state/mod.rs:128-192", "engine/src/session/manager.rs:29-50"]}
{"id": "C184", "title": "Keeping no guard of the same kind is enough to finish", "statement": "If every thread uses keys only while it keeps no guard of a key, and adds and removes sessions only while it keeps no guard of a session, then however the threads have gone on so far, they can go on so that all of them come to their end.", "quantifier": "all such programs of any number of threads, all assignments of keys and sessions to locks, all engines, all schedules", "why_tests_cant": "A deadlock needs a particular schedule of at least two threads.", "anchors": ["engine/src/hop.rs:214-223", "engine/src/state/mod.rs:128-192", "engine/src/session/manager.rs:29-50"]}
{"id": "C185", "title": "One order for the locks of keys and of sessions lets everybody finish", "statement": "Whatever order is chosen for the locks of keys and of sessions: if every thread asks only for locks higher than all it holds, an addition counting as asking for any lock of a session, then however the threads have gone on so far, they can go on so that all of them come to their end. So they can if all of them use keys only while they keep no guard, and sessions only while they keep no guard of a session; and if all of them use sessions only while they keep no guard, and keys (by functions or by commands) only while they keep no guard of a key. In all of these cases they do so in every execution in which each of them gets its turn again and again.", "quantifier": "all such programs of any number of threads, all assignments of keys and sessions to locks, all orders, all engines, all schedules, all infinite fair executions", "why_tests_cant": "That nobody waits for ever is a statement about all continuations of all schedules.", "anchors": ["engine/src/hop.rs:170-223", "engine/src/state/mod.rs:128-192", "engine/src/session/manager.rs:29-50"]}
{"id": "C186", "title": "Commands dispatched while guards of their keys are kept", "statement": "Let a user of the library keep guards that the key space handed out (`State::key_ref`, `key_mut`, `key_or_insert_with`), and dispatch a command with `Hop::dispatch` meanwhile. (a) A command that changes no key (Echo, Exists, Get, Is, Keys, Length, Stats, Type) is carried out, with the answer and effect it would have alone, if the other threads are idle and all guards, whoever keeps them, whose locks are those of keys it names are shared. (b) If the same thread keeps any guard, shared or exclusive, whose lock is that of the command's key, an Increment, Decrement, IncrementBy, DecrementBy or Delete, or an Append or Set with a key type, that is not wrong in itself panics at once or waits for ever. (c) If the same thread keeps any guard whose lock is that of a key the command may change (its first argument, for Rename the second too), Append, the counters, Delete, Rename and Set never succeed, whatever other threads do: what the thread would do after a success is never done. (d) A Rename of a key to a free one whose lock is that of a shared guard of the same thread, no guard being kept for the old key's lock, removes the old key and then waits for ever: the value is under neither key. (e) If there is an order of the locks such that every thread asks for the lock of a key, also by dispatching a command that names it, only while all guards it keeps are for earlier locks, all threads can always finish.", "quantifier": "all commands, requests, key types and arguments; all assignments of keys to locks; all sets of kept guards of any number of threads; all key spaces; all schedules of the other threads", "why_tests_cant": "Whether keys share a lock depends on hashes and on the number of shards, which depends on the machine; a test that waits for ever says nothing about why, and no test covers every schedule of other threads.", "anchors": ["engine/src/state/mod.rs:70-209", "engine/src/hop.rs:170-197", "engine/src/command/impl/rename.rs:7-32", "engine/src/command/impl/append.rs:60-76", "engine/src/command/impl/set.rs:125-149", "engine/src/command/impl/delete.rs:7-24", "engine/src/command/impl/increment_by.rs:8-40"]}
{"id": "C187", "title": "A command looks at the keys it declares, and only at those", "statement": "A command identifier can be asked how many keys the command has (none, one, two or any number). Given two stores that agree on the arguments that are keys according to that (the first, the first two, all of them) and on the statistics, a request gets the same answer from both and leaves the same in these keys and in the statistics, and it changes no other key. And no key is declared in vain: for each command and each of its keys there are two stores that differ in that key only and give different answers to the same request.", "quantifier": "all sixteen commands, all requests, all pairs of stores, both build modes; every place of a key up to the 255th", "why_tests_cant": "the claim compares unboundedly many pairs of stores, and has to hold for every other key", "anchors": ["engine/src/command/command_id.rs:71-93", "engine/src/hop.rs:170-197", "engine/src/command/impl"]}
{"id": "C188", "title": "A command needs no more arguments than it declares", "statement": "A command identifier can be asked how many keys and how many further arguments (none, one or any number) the command has. Arguments beyond these make no difference to what a request stores. (False: Append and Set declare one argument besides the key but use all of them.)", "quantifier": "all sixteen commands, all requests, stores and build modes", "why_tests_cant": "the arguments that are left out are arbitrary in number and contents", "anchors": ["engine/src/command/command_id.rs:47-93", "engine/src/command/impl/append.rs:60-76", "engine/src/command/impl/set.rs:69-107"]}
{"id": "C189", "title": "Which arguments a command uses, and which commands declare them wrongly", "statement": "Stats uses no argument; the counters without an amount, Delete, Get, Keys, Length and Type use the first; the counters with an amount and Rename use the first two; Append, Set, Echo, Exists and Is use all. Two requests of a command with the same key type that agree in the arguments used do the same, step by step, alone or among others. No argument in this list can be left out: for each place there are two requests that differ there only and have different outcomes. What commands declare about their keys and arguments is right for all but four: Append and Set use more than they declare, Delete and Length declare an argument that they never use.", "quantifier": "all sixteen commands, all requests, every place of an argument up to the 255th, both build modes", "why_tests_cant": "the claim is about every pair of argument lists that agree in a part", "anchors": ["engine/src/command/command_id.rs:47-93", "engine/src/command/impl"]}
{"id": "C190", "title": "Sending the same request again", "statement": "Sent any number of times in a row, a request of a command other than Append, Increment, Decrement and the By counters leaves the stored keys as its first execution left them (for a Set in a debug build: if its answer fits into a response). All answers are then the same too, except for Delete, Rename and Stats. A Delete or Rename that succeeded is refused from then on (Delete: precondition failed; Rename: the key does not exist) and changes nothing. A request of any command that is refused is refused with the same error each time, and the keys stay as the first refusal left them. The five other commands do count again: each has a request that succeeds twice and leaves another value the second time.", "quantifier": "all requests, all stores, all numbers of repetitions, both build modes", "why_tests_cant": "the number of repetitions is unbounded and the stored values are arbitrary", "anchors": ["engine/src/command/impl/set.rs", "engine/src/command/impl/delete.rs", "engine/src/command/impl/rename.rs", "engine/src/hop.rs:164-197"]}
{"id": "C191", "title": "Requests that have nothing to do with each other may be served in another order", "statement": "Let requests of a history change places with their neighbours, again and again, provided that neither can change a key the other names. The database ends up the same, statistics included, and each request other than Stats is given the same answer as in the first order. If all requests are apart in this way, they may be served in any order, or at the same time under any schedule: once all have been answered, the keys and the answers are as if they had been served one after the other. Without the proviso this is not so: two Sets of one key, or a Set and a Get.", "quantifier": "all histories, all stores, all rearrangements of this kind, all schedules, both build modes; counters of the statistics that can still count", "why_tests_cant": "the number of rearrangements grows faster than exponentially with the length, and the length, the keys and the stored values are unbounded", "anchors": ["engine/src/hop.rs:164-197", "engine/src/command/impl", "engine/src/state/mod.rs"]}
{"id": "C192", "title": "Which values can come to be stored, and which stores can be built up", "statement": "Start from an empty store and send requests of at most 255 arguments, none of them empty. (The builder refuses an empty argument added as bytes, but not one that is an item of a set or part of a map added as a value: see C207.) Every value that is ever stored is a byte string, string, integer, float or boolean, or a list without empty items, or a set of 1 to 254 members without an empty one, or a map of at most 127 entries with no empty key or value. Conversely each such value can be stored under each key that is not empty, internal keys included. The stores that can be built up are exactly those in which finitely many keys, none of them empty, hold such values. In a debug build, the first half needs that the answers fit into responses, and the second half that the value fits into one.", "quantifier": "all histories of requests, all values, all keys, all stores of finitely many keys; both build modes", "why_tests_cant": "the histories are unbounded, and the converse is about each of infinitely many values, keys and stores", "anchors": ["engine/src/command/impl/set.rs", "engine/src/command/impl/append.rs", "engine/src/command/impl/rename.rs", "engine/src/command/request/mod.rs:65-87", "engine/src/hop.rs:164-197"]}
{"id": "C193", "title": "What is stored can be found out", "statement": "Take two databases that hold different things under some key that is not empty: nothing in one of them, or values of two types, or two values that are not the same up to the order in sets and maps. If what they hold fits into a response or is empty, then one or two requests are answered differently by the two. This holds for internal keys as well, which cannot be read: what is there is renamed first and then read.", "quantifier": "all pairs of stores of finitely many values as in C192, all keys, both build modes; counters of the statistics that can still count", "why_tests_cant": "the claim is about every pair of stores, and a store has unboundedly many keys and values", "anchors": ["engine/src/command/impl/get.rs", "engine/src/command/impl/length.rs", "engine/src/command/impl/type.rs", "engine/src/command/impl/exists.rs", "engine/src/command/impl/rename.rs", "engine/src/command/response"]}
{"id": "C194", "title": "The order in sets and maps is all that cannot be found out, and all that may differ", "statement": "Let two databases hold the same up to the order in sets and maps, and let two programs, each with its own order of listing sets and maps (as with two seeds of the hash function), serve them the same requests. As long as the answers fit into responses, the answers are the same up to the order of the members of sets, of the entries of maps and of the keys listed by Keys, the statistics are the same, and the databases again hold the same up to order. Conversely, if no history of requests is answered differently by two databases, but for such order, they hold the same up to order. The converse needs that the values stored fit into responses or are empty, and that there is a free key to which an internal key can be renamed.", "quantifier": "all pairs of stores, all histories of requests, all orders of listing, both build modes; counters of the statistics that can still count", "why_tests_cant": "a test runs with one order or a few, on particular stores, and cannot try all histories of requests", "anchors": ["engine/src/command/impl/keys.rs", "engine/src/command/impl/get.rs", "engine/src/command/response/mod.rs", "engine/src/state/value.rs", "engine/src/hop.rs:164-197"]}
{"id": "C195", "title": "Append, Set and Rename are refused even while shared guards of their keys are kept", "statement": "Let users of the library keep shared guards (`State::key_ref`) of keys, and let one of their threads dispatch an Append, Set or Rename without a key type that would be refused if it were alone: an Append to a value that cannot be appended to, a Set with arguments that do not fit the stored type, a Rename of a missing key or to one in use, or any of them with an argument missing. Then, the other threads being idle, it is refused with the same error and leaves the keys and statistics as it would alone, even if guards are kept, by the same thread or others, whose locks are those of keys it names, if all of these are shared. (When it is not refused, and the guard is the same thread's and of a key it may change, C186 says it never succeeds.)", "quantifier": "all requests of these commands, all assignments of keys to locks, all sets of kept guards of any number of threads, all key spaces", "why_tests_cant": "the keys, values, guards and assignments of keys to locks are arbitrary and unbounded", "anchors": ["engine/src/command/impl/append.rs:60-76", "engine/src/command/impl/set.rs:125-150", "engine/src/command/impl/rename.rs", "engine/src/state/mod.rs:128-209"]}
{"id": "C196", "title": "From any store to any other, and every change can be undone", "statement": "From every store of finitely many keys, none of them empty, requests without empty arguments lead to every store described in C192, internal keys included: no request leads to a dead end. In particular, whatever requests without empty arguments have been served, there are further requests after which every key holds again exactly what it held before. In a debug build this needs that the values to be stored fit into responses.", "quantifier": "all pairs of stores, all histories of requests, both build modes, any state of the statistics", "why_tests_cant": "there are infinitely many stores, and the histories are unbounded", "anchors": ["engine/src/command/impl/delete.rs", "engine/src/command/impl/set.rs", "engine/src/command/impl/append.rs", "engine/src/command/impl/rename.rs", "engine/src/hop.rs:164-197"]}
{"id": "C197", "title": "The order in sets and maps makes no difference to requests executed at once", "statement": "Two databases that hold the same up to the order of the members of sets and of the entries of maps, and have counted the same, execute the same requests at once, interleaved in the same way, one program listing sets and maps in one order and the other in another. Then at every moment they hold the same up to order again and have counted the same, and the same requests have been answered: with responses of the same length, written for answers that are the same up to order, or with the same error or panic. This holds without any condition: counters may overflow and answers may be too long. It holds also for requests served one after the other.", "quantifier": "all pairs of databases that are the same up to order, all requests and buffers, all orders of iteration, all interleavings at every moment, both build modes", "why_tests_cant": "hash maps iterate in an order chosen at random in every process; there are unboundedly many orders and interleavings", "anchors": ["engine/src/command/response/mod.rs:177-279", "engine/src/command/impl/get.rs", "engine/src/command/impl/keys.rs", "engine/src/command/impl/set.rs", "engine/src/hop.rs:164-197"]}
{"id": "C198", "title": "No more comes to be stored than has been sent", "statement": "What is stored is counted in bytes: the keys and their values as they are on the wire, a value of fewer than 8 bytes taken for one of 8. Whatever requests are served, built, parsed or malformed, at most as much is stored afterwards as before, and the bytes of the requests, and two bytes for each request. This holds one after the other, and at every moment of requests executed at once, and whether requests succeed or fail. The bound is met: by an Increment of a key that was not there.", "quantifier": "all requests and histories, all stores, all interleavings at every moment, all orders of iteration, both build modes", "why_tests_cant": "the bound is about all histories of any length; a test shows only that a given one does not exceed it", "anchors": ["engine/src/command/impl/set.rs", "engine/src/command/impl/append.rs", "engine/src/command/impl/increment_by.rs", "engine/src/command/impl/rename.rs", "engine/src/state/mod.rs:86-192", "engine/src/hop.rs:164-197"]}
{"id": "C199", "title": "How long an answer can be", "statement": "The response to a request that succeeds, whether it was built, parsed or malformed, is longer by at most 5 bytes than the request and the value stored under its first argument together, both as on the wire, a missing or smaller value taken for one of 8 bytes. The response to Stats has at most 97 bytes, and that is reached. When requests are executed at once, the response to each is at any moment longer by at most 13 bytes than its request, all that was stored at the beginning, and all requests with two bytes for each.", "quantifier": "all requests, all databases, all contents of the buffer, all interleavings at every moment, all orders of iteration, both build modes", "why_tests_cant": "a request that makes the server answer far more than was sent or stored would be a way to exhaust it; that there is none is a statement about all requests and stores", "anchors": ["engine/src/command/response/mod.rs:124-304", "engine/src/command/impl/get.rs", "engine/src/command/impl/append.rs", "engine/src/command/impl/keys.rs", "engine/src/command/impl/echo.rs", "engine/src/command/impl/stats.rs"]}
{"id": "C200", "title": "No more comes to be stored than has been sent, whatever else users do", "statement": "For users as in C150 (each makes calls of all kinds, requests, counter, session and subscription calls, every one depending on what its calls so far came to), at every moment: what is stored is at most what was stored at the beginning and the bytes of the requests made so far, with two bytes for each, counted as in C198. Every answer to a request other than Stats is longer by at most 13 bytes than its request, what was stored at the beginning, and the requests made so far with two bytes for each.", "quantifier": "all engines, users (any functions from answers to calls), numbers of calls, schedules, builds, distributions of sessions over locks", "why_tests_cant": "the users decide after every answer what to send next; there are infinitely many such users and histories", "anchors": ["engine/src/hop.rs:164-290", "engine/src/command/impl/set.rs", "engine/src/command/impl/append.rs", "engine/src/command/response/mod.rs:124-304", "engine/src/session/manager.rs", "engine/src/pubsub/manager.rs"]}
{"id": "C201", "title": "A release build does what a debug build does unless that panics", "statement": "A request, whether well formed or not, whose execution does not panic in a debug build has the same outcome, the same response and the same effect on what is stored and counted in a release build. Requests one after the other, none of which panics in a debug build, have the same answers and leave the same in a release build. Requests executed at once, none of which has panicked in a debug build up to some moment, have up to that moment, with the same order of their steps, had the same effects in a release build, and the same requests have been answered in the same way.", "quantifier": "all requests, response buffers, stores, histories, interleavings, iteration orders", "why_tests_cant": "the two builds differ in overflow checks and debug assertions; that they differ in nothing else has to be seen for every request and every store, and a test is compiled in one of the two modes", "anchors": ["engine/src/hop.rs:164-290", "engine/src/state/object/object_impl.rs", "engine/src/command/impl/increment.rs", "engine/src/command/response/mod.rs:124-304", "lib/metrics/src/lib.rs:243-250"]}
{"id": "C202", "title": "Building requests, reading responses, and counting do the same in both builds unless the debug build panics", "statement": "Pushing an argument, several arguments or a value onto a request builder in any state, if that does not panic in a debug build, gives the same result and leaves the same builder in a release build. A response decoder in any state, fed any bytes, if it does not panic in a debug build, says the same and is left in the same state in a release build. The same holds of asking a request for any range of its arguments and of taking the next of them, of counting in any set of metrics, and of adding a session to any session manager.", "quantifier": "all builders, values, decoder states, byte sequences, requests, ranges, metrics, session managers", "why_tests_cant": "there are infinitely many builders, decoder states and inputs, and a test is compiled in one of the two modes", "anchors": ["engine/src/command/request/builder.rs:127-274", "engine/src/command/response/context.rs:97-534", "engine/src/command/request/mod.rs:95-157", "lib/metrics/src/lib.rs:243-250", "engine/src/session/manager.rs:29-46"]}
{"id": "C203", "title": "Clients, command line and server do the same in both builds unless the debug build panics", "statement": "A call of the in-memory client that does not panic in a debug build resolves to the same and has the same effect in a release build, also when calls are made at once with the same order of steps. A call of the client of a server sends the same bytes and resolves to the same, whatever the connection takes and whatever comes back. A line given to the command line prints the same or is refused for the same reason, with the same effect, and a session of lines prints the same, ends the same way and leaves the same. Connections to the server, served at once, none of which has panicked in a debug build up to some moment, have sent the same bytes and ended the same way in a release build.", "quantifier": "all calls, stores, connections, lines, streams of bytes, interleavings, iteration orders", "why_tests_cant": "there are infinitely many calls, lines, streams and interleavings, and a test is compiled in one of the two modes", "anchors": ["client/src/backend/memory.rs:95-345", "client/src/backend/server.rs:117-399", "cli/lib/src/parse.rs:58-192", "cli/lib/src/print.rs:16-55", "cli/lib/src/process.rs:110-334", "server/src/main.rs:82-119"]}
{"id": "C204", "title": "Clients that act on answers fare the same in both builds unless the debug build panics", "statement": "Clients at work at once, each of which issues requests, every one depending on the answers to those before: if in a debug build all have come to their end and none of their requests has panicked, then in a release build, with the same order of steps, all have come to their end with the same answers, and the same is stored and counted. The same holds of tasks that share an in-memory client, each acting on what its calls came to.", "quantifier": "all numbers of clients and tasks, all strategies of each (any function from answers to the next request or call), all interleavings, stores and iteration orders", "why_tests_cant": "the clients decide after every answer what to send next; there are infinitely many such clients and interleavings, and a test is compiled in one of the two modes", "anchors": ["engine/src/hop.rs:164-290", "client/src/backend/memory.rs:95-345"]}
{"id": "C205", "title": "Users of one engine fare the same in both builds unless the debug build panics", "statement": "Users of one engine who make calls of all kinds (requests, opening and closing sessions, publish/subscribe calls, reading counters), each call depending on the answers so far: if none of their calls has panicked so far in a debug build, then in a release build, with the same order of steps, the whole engine is the same, everybody has made the same calls with the same answers, and is in the middle of the same call, if any.", "quantifier": "all engines, users (any functions from answers to calls), numbers of calls, schedules, distributions of sessions over locks, iteration orders", "why_tests_cant": "the users decide after every answer what to call next; there are infinitely many such users and histories, and a test is compiled in one of the two modes", "anchors": ["engine/src/hop.rs:131-217", "engine/src/session/manager.rs:29-54", "engine/src/pubsub/manager.rs", "lib/metrics/src/lib.rs:181-250"]}
{"id": "C206", "title": "What a request that panics leaves behind", "statement": "If serving a request panics in a debug build, the counters count what they did before, and the keys and values are as they were, or exactly as serving the request in a release build would leave them, or the request is a Set and its key holds nothing, or an empty map or set, while every other key is as it was. If serving a request panics in a release build, its first argument is an internal key; the counters are unchanged; and either the command reads or updates a value and everything is as it was, or it is a Set and the key holds nothing while every other key is as it was.", "quantifier": "all requests (malformed ones included), stores, counter values, response buffers, iteration orders", "why_tests_cant": "a panic is the path tests avoid; which of many points a request panics at depends on lengths and numbers no list of cases covers", "anchors": ["engine/src/hop.rs:170-197", "engine/src/command/impl/set.rs:11-150", "engine/src/command/impl/append.rs:15-76", "engine/src/command/impl/increment_by.rs:8-55", "engine/src/state/mod.rs"]}
{"id": "C207", "title": "Which values and stores calls through an in-memory client can bring about", "statement": "Start from an empty store and make any calls through an in-memory client, with any arguments and any number of them, whether they succeed or not. Every value that is ever stored is an integer, float or boolean, a byte string or string that is not empty, a list without empty items (itself perhaps empty), a set of 1 to 254 members, or a map of 1 to 127 entries; the members of a set, and the keys and values in a map, may be empty. Only finitely many keys, none of them empty, hold values. Conversely, from every store of finitely many keys, none of them empty, calls none of which is refused lead to every store of this kind, internal keys included, up to the order in sets and maps. So whatever calls have been made, there are further ones after which everything is as it was, up to that order. In a debug build the first half needs that no call panics, the second that the sets and maps fit into responses.", "quantifier": "all lists of client calls, all values and keys given to them, all stores of finitely many keys, all orders of listing, both build modes", "why_tests_cant": "an exact description of the reachable stores concerns all histories of calls, and that each such store is reachable concerns infinitely many stores", "anchors": ["client/src/backend/memory.rs:95-345", "engine/src/command/request/builder.rs:86-252", "engine/src/command/impl/set.rs:11-150", "engine/src/command/impl/append.rs:15-76"]}
{"id": "C208", "title": "What may be stored while tasks share an in-memory client", "statement": "Any number of tasks share an in-memory client, each making calls that depend on what its earlier calls came to, taking turns between the atomic operations in any way. If it was so at first, then at every moment: items of lists are not empty; sets have at most 254 members and maps at most 127 entries, without repetitions; finitely many keys are present, and the empty key is not. Compared with calls one after the other, the only further values are the empty byte string, string, set and map. Each of these can come to stay: if one task sets a key and another renames it, both calls can succeed and leave the new value under the old name and an empty value of its type under the new name. In a release build the stores that tasks can leave behind once all of their calls have ended, beginning with an empty store, are exactly those described, up to the order in sets and maps.", "quantifier": "all numbers of tasks, all adaptive choices of calls, all schedules, all moments, all initial stores of the kind, both build modes", "why_tests_cant": "schedules are unbounded and a store between two operations of one call is never seen by a test of that call; the empty value needs a rename between the two halves of a set", "anchors": ["engine/src/state/mod.rs:169-192", "engine/src/command/impl/set.rs:11-150", "engine/src/command/impl/append.rs:15-76", "engine/src/command/impl/rename.rs:8-32", "client/src/backend/memory.rs:95-345"]}
{"id": "C209", "title": "Calls of tasks that share an in-memory client come to an end", "statement": "Any number of tasks share an in-memory client, each making calls that depend on what its earlier calls came to, taking turns between the atomic operations in any way. Let B bound, for each key a task names first in a call, the number of calls that may be made by those other tasks that may set, delete or rename that key. Then under every schedule each call of the task resolves, with a result, an error or a panic, and the task has ended after at most 2*B + 261 turns for each of its calls, whatever the other tasks do and even if they never take another turn. If all tasks get their turns again and again, there is a moment from which on all of them have ended with all of their calls resolved. Calls have at most 255 arguments.", "quantifier": "all numbers of tasks, all adaptive choices of calls, all schedules and all fair infinite schedules, all initial stores, both build modes", "why_tests_cant": "termination under every interleaving is a statement about unboundedly many schedules, infinite ones among them; the loop that looks up or inserts a key has no bound of its own", "anchors": ["engine/src/state/mod.rs:86-192", "engine/src/command/impl/increment.rs:1-62", "client/src/backend/memory.rs:95-345"]}
{"id": "C210", "title": "What calls through an in-memory client can find out about a store, exactly", "statement": "Take two stores that calls can bring about, with the same statistics, whose maps and sets take up less than 4 GiB each and whose other values are empty or can be carried by a response. Some sequence of calls through an in-memory client comes to different results on the two if and only if it is not the case that under every key they hold the same value, or two maps listed with the same keys, or two sets with as many members, of which get makes the same (the same value, the same error, or no readable response both times). If any calls tell them apart then two calls do, also for internal keys. The part that nothing tells apart holds without limits on sizes, and also for any number of tasks that share the client and choose calls by what earlier calls came to, under every schedule. Such stores exist: in release builds, of a map with one key of 256 bytes 255, no calls tell what is under that key. Two stores that differ, beyond the order in sets and maps, in values that can be carried are always told apart.", "quantifier": "all pairs of stores, all sequences of calls and all schedules of all adaptive callers, all orders in which maps and sets are listed, both build modes; counters of the statistics that can still count", "why_tests_cant": "that no sequence of calls distinguishes two stores is a statement about all sequences; the separating calls are needed for every pair of different stores", "anchors": ["client/src/backend/memory.rs:95-345", "engine/src/command/response/mod.rs:177-310", "engine/src/command/response/context.rs: Context::feed", "engine/src/command/impl/get.rs:9-27"]}
{"id": "C211", "title": "What a call through an in-memory client has left behind, told by what it came to", "statement": "A call that resolves to an error has left every entry as it was, with one exception: an increment or decrement told that a key is a float, when that key is not empty, not internal and holds nothing; it resolves to an error about the type and has left an integer 0 there and everything else alone. A call that resolves to a value has left exactly what its command leaves. A call that panics in a release build was either about an internal key, counted nothing, and left everything as it was or, if it is set, removed what that key held and nothing else; or its command was carried out in full and counted and only the answer, which no response can carry, did not come back. In a debug build a call that panics has counted nothing and left the entries as they were, or as its command leaves them in a release build, or, if it is set, with nothing, an empty map or an empty set in place of what its key held; or its command was carried out in full as above.", "quantifier": "all calls with up to 255 arguments, all databases with counters that can still count once more, all orders in which maps and sets are listed, both build modes", "why_tests_cant": "tests look at chosen calls that fail; this says of every call what a caller who only sees the outcome can rely on, including for answers larger than any test would build", "anchors": ["client/src/backend/memory.rs:95-345", "engine/src/hop.rs:170-196", "engine/src/command/response/mod.rs:177-310", "engine/src/command/response/context.rs: Context::feed"]}
{"id": "C212", "title": "Making the same call again through an in-memory client", "statement": "A call that resolves to an error, made again any number of times with nothing in between, resolves to the same error each time, and the entries stay as the first left them. A call other than append, increment, increment_by, decrement and decrement_by (which count again) leaves the entries its first run left, however often it is made, also if it panics; and it comes to the same each time, except for delete, rename and stats. A delete or rename that resolved to its key does so once: made again it resolves to the error that the precondition failed, or that the key does not exist, and the entries stay. For set in a debug build the response must be one that can be delivered.", "quantifier": "all calls with up to 255 arguments, all databases, any number of repetitions, both build modes; for what calls come to: counters of the statistics that can still count", "why_tests_cant": "whether a call may be retried safely after any outcome is a statement about all calls and all stores, and about every number of repetitions", "anchors": ["client/src/backend/memory.rs:95-345", "engine/src/hop.rs:170-196", "engine/src/command/impl/set.rs:125-150", "engine/src/command/impl/rename.rs", "engine/src/command/impl/delete.rs"]}
{"id": "C213", "title": "Calls through an in-memory client that have nothing to do with each other may be made in another order", "statement": "Let calls of a sequence change places with their neighbours, again and again, provided that one of the two is refused before the engine sees it or neither can change a key the other names. The database ends up the same, statistics included, and each call other than stats comes to the same as in the first order. If all calls are apart in this way they may be made in any order. If none is refused they may also be made at the same time by as many tasks that share the client, under any schedule: once all have resolved, the entries, and what the calls other than stats came to, are as if they had been made one after the other. Without the proviso this is not so: two sets of one key, or a delete and an exists.", "quantifier": "all sequences of calls with up to 255 arguments each, all databases, all rearrangements of this kind, all schedules, both build modes; counters of the statistics that can still count", "why_tests_cant": "the number of rearrangements grows faster than exponentially with the length of the sequence, for every database", "anchors": ["client/src/backend/memory.rs:95-345", "engine/src/hop.rs:170-196"]}
{"id": "C214", "title": "Which stores sessions of the command line interface can bring about", "statement": "Type any lines into the CLI over an in-memory backend, understood or not. If before only finitely many keys hold values, all of them integers, and each of these keys is the UTF-8 form of a text that is not empty and has neither a space nor a line break in it, then this is so at the end of the session too; this holds in particular if nothing was stored before. Conversely, every such store whose keys are shorter than 4 GiB, with whatever integers and with internal keys, can be left by a session that started with nothing, and also by one that started with any values, integers or not, under finitely many such keys; no line of that session fails to parse, and none panics. In a debug build this half needs that the statistics can still count the lines of that session: at most one for each key there was, three for each key there is to be, and one for each step from zero to its integer.", "quantifier": "all lists of lines, all databases, all stores of the kind described, both build modes", "why_tests_cant": "there are infinitely many sessions, and a session that leads to a given store may need more lines than could ever be typed in a test", "anchors": ["cli/bin/src/main.rs:21-39", "cli/lib/src/parse.rs:58-178", "cli/lib/src/process.rs:110-165", "cli/lib/src/process.rs:203-334", "client/src/backend/memory.rs:95-345"]}
{"id": "C215", "title": "A session of the command line interface is the client calls its lines stand for, one after the other", "statement": "Let every line of a session spell a command with at most 255 arguments. The session prints, line by line, what the client calls that the lines stand for come to, each made on the database the calls before it have left; it ends with a panic at the first line whose call or whose printing panics, or that asks for a command the CLI does not support, and otherwise with the error that no command was provided, at the end of the input. It leaves exactly the database, statistics included, that these calls leave, up to and including the line that ended it; lines after that have no effect. So two sessions whose lines stand for the same calls print the same, end in the same way and leave the same database, however they are spelled: the type named (but in `is`), arguments that are not used, and white space at the end make no difference.", "quantifier": "all lists of such lines, all databases, both build modes", "why_tests_cant": "sessions are of any length, every line depends on what all the lines before have left, and each can be spelled in infinitely many ways", "anchors": ["cli/bin/src/main.rs:21-39", "cli/lib/src/parse.rs:58-178", "cli/lib/src/process.rs:110-165", "cli/lib/src/process.rs:203-334"]}
{"id": "C216", "title": "No more comes to be stored through an in-memory client than its calls have handed over", "statement": "What is stored is counted as in C198: the keys and their values as on the wire, a value of fewer than 8 bytes taken for one of 8. A call that may change something (append, decrement, decrement by, delete, increment, increment by, rename, set) hands over the bytes of its arguments, four for each argument, four for the command and one for a type it names; any other call hands over nothing. Whatever calls are made one after the other, accepted, refused or panicking, with however many arguments: at most as much is stored afterwards as before, and the bytes the calls have handed over. The same holds at every moment while any number of tasks share the client, each making calls that depend on what its earlier calls came to, for the calls that have been made or begun. The bound is met, by an increment of a key that was not there.", "quantifier": "all sequences of calls, all numbers of tasks, all adaptive choices of calls, all schedules, all moments, all databases, all orders of iteration, both build modes", "why_tests_cant": "sequences, tasks and schedules are unbounded, and the bound has to hold between any two atomic operations, when values may have been created and not yet filled", "anchors": ["client/src/backend/memory.rs:95-345", "engine/src/hop.rs:164-197", "engine/src/state/mod.rs:86-192", "engine/src/command/impl/set.rs", "engine/src/command/impl/append.rs", "engine/src/command/impl/rename.rs"]}
{"id": "C217", "title": "No more comes to be stored by a session of the command line interface than has been typed", "statement": "Whatever lines are typed into the command line interface, understood or not, and whether or not one of them makes it panic: when the session has ended, at most as much is stored as before, counted as in C198, and the bytes of the lines, and four for each line.", "quantifier": "all lists of lines, all databases, both build modes", "why_tests_cant": "sessions and lines are of any length, and a line may be spelled and fail in infinitely many ways", "anchors": ["cli/bin/src/main.rs:21-39", "cli/lib/src/parse.rs:58-178", "cli/lib/src/process.rs:110-165", "cli/lib/src/process.rs:203-334"]}
{"id": "C218", "title": "A server sends at most 97 bytes for a line, and keeps a line of any length", "statement": "While clients send bytes to a server and hang up as they like, and the tasks of the connections take turns in any way: at every moment a connection has been sent at most 97 bytes for each newline that has arrived on it, with 97 more if its client has hung up, and never more than 97 bytes for each byte that has arrived on it. (A statistics request of one byte is answered with 97.) What the server keeps for a connection, apart from the request being carried out, is always the end of what has arrived on it; and there is no limit to it: as long as the client sends no newline and does not hang up, everything it has sent is kept and nothing is sent back, and the server goes on reading until it has read all of it. All this as long as no counter comes near its limit.", "quantifier": "all numbers of connections, all interleavings of arriving bytes, hang-ups and steps of the tasks, all databases with counters not near their limit, all orders of iteration, both build modes", "why_tests_cant": "byte streams and schedules are unbounded, and the bound has to hold between any two steps of any connection", "anchors": ["server/src/main.rs:57-66", "server/src/main.rs:82-119", "engine/src/hop.rs:164-197", "engine/src/command/impl/stats.rs", "engine/src/command/request/context.rs:62-206"]}
{"id": "C219", "title": "Little waits for a client that does not read", "statement": "What is in transit takes up room, clients may be slow to read or never read, and reading and writing may fail at any time, as in C174. At every moment and on every connection, the answers that have been made and that the client has not read are of at most 97 bytes more than there is room for in transit, whatever and however much the client has sent: the server makes no further answer while one is being written. All that has been answered to a client, read or not, is at most 97 bytes for each newline it has managed to send, with 97 more if it has hung up, and never more than 97 bytes for each byte it has managed to send. The first bound is met, by an unreadable line followed by a request for statistics. All this as long as no counter comes near its limit.", "quantifier": "all numbers of connections, sizes of the room, databases with counters not near their limit, and orders of events (sending, reading, turns, hang-ups, failures), both build modes", "why_tests_cant": "streams, room and schedules are unbounded, and the bound has to hold at every moment of every interleaving", "anchors": ["server/src/main.rs:57-66", "server/src/main.rs:82-119", "engine/src/hop.rs:164-197", "engine/src/command/impl/stats.rs"]}
{"id": "C220", "title": "What a connection is answered depends on nothing but what has arrived on it, but for the numbers in statistics", "statement": "Take any two servers, with whatever stored, in either build, with any numbers of connections, on which bytes arrive in whatever packets while the tasks take turns in any way. If the same bytes have arrived on a connection of the one and on a connection of the other, their clients have both hung up or neither has, and there is nothing left to do for them, then the two have been sent the same responses, but for the numbers in answers to requests for statistics, and have come to the same end, if to any. If the byte that asks for statistics (101) is not among those that have arrived, they have been sent exactly the same bytes. The same holds of what clients have read when what is in transit takes up room and clients are slow to read, as in C174, on connections on which reading and writing have not failed. So the answers tell a client nothing about other clients, nor about what is stored, except through statistics. All this as long as no counter comes near its limit.", "quantifier": "all pairs of executions: all numbers of connections, packets, interleavings, hang-ups, databases with counters not near their limit, orders of iteration, builds", "why_tests_cant": "it compares any two of infinitely many executions", "anchors": ["server/src/main.rs:57-66", "server/src/main.rs:82-119", "engine/src/command/request/context.rs:62-206", "engine/src/hop.rs:164-197"]}
