# Formal model of tenzir/vast in Lean 4

This directory holds a Lean 4 model of the logic of `libvast` (source in `/repo`)
and machine-checked theorems about it.  `properties.jsonl` lists the properties
in English, `MANIFEST.json` maps every property to theorems, and the modules
live in `lean/Verif/`.

## How to read the model

Each component has up to four files:

| file | content |
|------|---------|
| `Verif/<Comp>/Model.lean` | transcription of the C++ functions; every definition cites file and lines |
| `Verif/<Comp>/Spec.lean`  | the small, independent specification the property is stated in |
| `Verif/<Comp>/Lemmas.lean`| helper lemmas, nothing a reader must trust |
| `Verif/<Comp>/Props.lean` | the property theorems (`Cnn_...`), each with a non-vacuity `example` |

Small components put model and specification in one file, with separate
sections, and the theorems in `Props.lean`.

Naming of theorems:

* `Cnn_name` states (one part of) property `Cnn` at full strength.
* `Cnn_name_partial` states a weaker form.  The doc comment says what is missing.
* `Cnn_name_refuted` proves that the code violates the property.  It gives a
  concrete witness.  The witness is a theorem about the model, that is about the
  code as it stands, not a hypothetical program.

Undefined behaviour, failed `VAST_ASSERT`s and error returns are distinct
outcomes (`none`, `Except.error` or a dedicated constructor) wherever the
property depends on them.

## Plan per property

| id | what is modelled | how it is proved |
|----|------------------|------------------|
| C01, C02 | `ewah_bitmap` on `BitVec 64` blocks: markers, appends, flip, range scan | representation invariant by induction over the operation list, decoding function, canonicity lemma |
| C03 | `binary_eval`/`nary_eval` over sequences of `bits` runs | pointwise semantics by induction on the total number of runs |
| C04 | `rank`, `select`, `frame`, `any`, `all` over runs | induction over runs, spec on `List Bool` |
| C05, C06, C55 | `wah_bitmap`, `null_bitmap` | invariant over the operation list; refutation for the null bitmap |
| C07, C08 | `make_ids`, `select_with` | spec: membership in a union of intervals |
| C09 | `decompose`/`compose` | induction over the base |
| C10 | all coders and Range-Eval-Opt | semantic invariant: each stored bitmap is the characteristic function of a digit predicate; induction over digits |
| C11, C12 | `arithmetic_index`, `order`, binners | composition of C10 with monotonicity of order and binning |
| C13-C17, C56 | `value_index` and its subclasses | invariant over the append history; refutations with concrete columns |
| C18-C21 | synopses and the meta index | soundness by induction over additions and expressions; refutations |
| C54 | `evaluate` and `evaluate_view` | case analysis over operators and induction over containers |
| C22-C26, C66 | expression visitors, operators, taxonomies | structural induction over expressions; graph reachability invariant |
| C27, C28, C57 | `select`, `split`, `truncate`, `filter`, `count_matching` on slices | list lemmas over runs of IDs |
| C29 | `range_map` as a sorted association list | invariant and refinement to a partial function |
| C30, C31 | `segment_store` with builder, cache and disk | refinement to a map from IDs to rows; crash states as prefixes of the file operations |
| C32 | the three caches | refinement to a bounded recency list |
| C33 | `io::save` as a list of file-system steps | case analysis over prefixes of the steps |
| C34 | importer ID block protocol with crash and restart | invariant over histories |
| C35-C41, C43 | actor state machines, one step per message | invariants over message schedules; refutations by concrete schedules |
| C42 | disk monitor loop | invariant over rounds |
| C67 | index with its directory, the file system actor and messages under way; crash and restart | five invariants over histories of events; refutations by concrete histories |
| C68 | builder and reader of MessagePack slices on the byte level, type_check, on top of the model for C47 | by recursion on the type: written and read back; invariant of the builder over rows; refutations by concrete values |
| C69 | printers and parsers of data, down to characters, in the order of the alternatives; floating-point arithmetic and the clock as parameters | earlier alternatives fail on each kind of text; IPv6 grammar and `inet_pton` by induction over groups; containers by induction on depth; refutations by concrete values |
| C70 | the number, subnet and duration parsers of the same model | induction over digits against a positional specification; refutations by concrete literals |
| C71 | `line_range`, `absorb_line` and the time-outs of the input buffer | invariant: line in progress plus remaining input equals the lines still to come; refuted for stalls behind a lone carriage return |
| C72 | the loop of the JSON and syslog readers with `multi_layout_reader` | accounting invariant per layout over loop rounds and calls; limits by counting |
| C73 | the source actor around such a reader | invariant over message histories; refutations by concrete schedules |
| C74 | the datagram handler | induction over datagrams; refuted for idle time-outs and small capacity |
| C75 | the CSV reader and the row counting of its builder | the builder holds whole rows as long as lines are clean; refuted by short and long lines |
| C76 | the incremental SHA-1 hasher with its block buffer | refinement to FIPS 180-4: buffer plus processed blocks equal the message |
| C77 | Community ID: ordering of endpoints, ICMP duals, message layout, encoding | equality with the prescribed message; injectivity of the message up to direction |
| C78 | the PCAP reader's dissection of a frame, with out-of-bounds reads as an outcome | calculation on frames put together from their fields; refuted by concrete frames |
| C79 | the flow table of the PCAP reader: cutoff, expiry, eviction | invariant on the entry of one flow over the trace; refuted for full tables and clocks that go back |
| C80 | the query grammar over abstract operands, `to_expr`, the expression printer | simulation of the parser along the syntax tree, by induction on its depth; round trip by reduction to it |
| C81 | `parse_search_id` on YAML trees, `make_pattern`, `make_predicate` | induction on the tree; values by calculation; refuted by concrete rules |
| C82 | the condition grammar of Sigma with its symbol table | C80's parser theorem with the operands of Sigma; longest match by induction on the table |
| C44-C47, C58-C61 | varbyte, base64, escapers, string helpers, msgpack on byte lists | round-trip by induction |
| C48 | `address`, `subnet` on bytes | bit-level reasoning on byte lists |
| C49, C62-C64 | `record_type` trees | mutual structural induction |
| C50 | sorted set operations | merge-style induction |
| C51 | `record` merge, flatten and `make_record` | structural induction |
| C83 | `from_days`, `to_days`, `time_point_printer`, `ymdhms_parser` | days as (era, century, olympiad, year, day); step lemma for the next day; induction on the inductive calendar |
| C84 | the same with the arithmetic on `double` | rounding as a function on rationals with its error bound; interval arithmetic; refuted by concrete times |
| C85 | `real_printer`, `real_parser` | bounds on the rounded fraction by interval arithmetic; the text without trailing zeros has the same value; refuted in the range of the carry |
| C86 | `duration_printer`, `duration_parser` | the unit is unique; the rounded quotient is at most 10^-10 off; then as C85 |
| C87 | `json_printer`, `ostream_writer` | a grammar of JSON as relations; induction over values and layouts builds the derivation of the text |
| C88 | `add`, `lookup`, `convert`, one line of the reader | the reader of the model accepts every derivation of the grammar; lookup refines a relation on paths; conversion by induction over the meaning relation |
| C89 | export followed by import | C87 and C88 together; distinct names make each column's path find its value |
| C90 | `default_selector` | sorting decides permutations; the cache finds the first type |
| C91 | `forward_results` | invariant: the bitmap of IDs represents those delivered; induction over the slices |
| C92 | the handler for slices of the explorer | the text of each bound is read as the bound or one nanosecond less (C84); evaluation of the query against the box |
| C93 | counters of the explorer | invariant over all courses of events |
| C94 | the handlers of the sink | invariant over all histories; the written events as a prefix of those that arrive |
| C95 | `parse_type`, the printer of types | induction on the derivation of a name |
| C96 | `read_impl`, `parse_header`, the parsers of columns | the state after a line is that of a simpler machine without slices; parsers against the grammar of texts by induction |
| C97 | `zeek_printer`, `print_header` | text of each value is read as the value; the rows then by C96 |
| C98 | `symbol_resolver`, `load_symbols`, `load_schema` | an invariant of the resolution: what is resolved has the meaning given by an inductive relation; the meaning of a definition is unique |
| C99 | `type_parser`, `symbol_map_parser`, `schema_parser` | mutual induction on the grammar of texts, with what may follow a type as the invariant; length of the rest as measure |
| C100 | printers of types, attributes, schemas; `serialize` of schemas | the text of a type is in the grammar of C99 and describes the type with references, which mean the types of the schema (C98) |
| C101 | builders and accessors of Arrow table slices | the array that represents a list of values is defined by recursion on the type; adding a value extends it, reading inverts it |
| C104 | what the store removes for the hits of an erase query, with the value indexes of the code | exactness of the hits (C102), then the events one by one |
| C105 | counter, index and the messages between them as a transition system; counts of slices | invariant with a bound on the remaining steps; composition with C103 |
| C106 | eraser with its timers, promise and messages | invariant over all executions without triggers; induction over batches and cycles |
| C107 | the CSV writer from layouts and rows to text; an independent reader as specification | texts that keep the state of the reader, closed under concatenation; induction over cells, rows and slices |
| C108 | exit handler of the node and two terminators as a transition system with a log of what happened | invariants of a terminator under interference, then of the node |
| C109 | the same | a measure that each step decreases; progress from the invariant |
| C110 | `configuration::parse` and `merge_settings` over the record model of C51, for an arbitrary file system and environment | merging, flattening and `put` followed along the path of one option |
| C111 | the eight steps of `load` over an arbitrary host | membership through the steps |
| C112 | the pivoter as a machine over its messages, with the lookup of columns of C62 | the values asked for are those of the column, by induction over the messages |
| C113 | the same machine | an invariant that relates the counter of exporters to the messages |
| C114 | loading of taxonomies as functions over the documents | induction over the definitions, with what the map holds after each |
| C115 | the type registry as a machine over its events, with its file | an invariant: the data, or the file, has what came |
| C116 | processes, the file with its inode and lock, one system call per step | an invariant: the file has the number of the node, and nobody acquires it while there is a node |
| C117 | the version file and starts with faults | case analysis on the first line; induction over starts |
| C118 | the registry, the label counters and the queries that wait for the type registry, as a state machine | invariants: generated labels come from the counters and are used once; names of singletons |
| C119 | the same, with monitors, DOWN messages and actors that end | an invariant: what is registered is watched, or its DOWN message is in the mailbox |
| C120 | configuration values, triggers, definitions; what makes a step is a parameter | induction over the triggers and the steps |
| C121 | the engines that an event passes, made from the configuration | C52 for each engine, and C120 |
| C122 | batches with their positions between source, importer, index, partition, indexers and store; acknowledgements; the subscription; all as events in any order | invariant over all event sequences |
| C123 | the same | a measure that each effective event decreases, and the invariant in states where nothing can happen |
| C124 | synopses of all columns with the texts of their parameters, their files, and the reader, which makes a new synopsis from the type in the file | printing and parsing the parameters is the identity on the rates; induction over the columns and the entries of the file |
| C125 | the same, with outcomes for errors, violated assertions and undefined behaviour | invariant of the buffered synopses |
| C126 | the same | an invariant: which values a synopsis has taken into account, from adding to reading |
| C127 | the parser of a line, function by function, with the parser of points in time of DataText and Calendar | a text for every message of the RFC; each parser reads its part of the text and leaves the rest |
| C128 | the same | each parser leaves an end of its input, and what it read is the text of its result |
| C129 | printer and parser, character by character | induction over the bytes, on both sides of the first dash |
| C130 | the generator, given the numbers | arithmetic of bytes |
| C131 | the loop of the disk monitor over a directory | C129, and the extension of a file name |
| C132 | the accountant as a state machine; how much the importer asks for is the environment's choice | invariant: what was delivered, the queue and the builder together are the rows of the specification |
| C133 | `record` and `apply_config` with the state of each sink | the state of a sink is a function of the configuration in force; induction over messages |
| C134 | `to_accountant_config` over a partial function of names | case by case |
| C135 | the parser, character by character | both directions, by inversion of the parser |
| C136 | both commands up to the call of the middleman | C135 and cases |
| C137 | `read_query` with files as a partial function | cases |
| C138 | the loop over the arguments, with the bitmap of C01 | induction over the arguments |
| C139 | the receive loop as a state machine | invariants over the messages |
| C140 | `infer` with the parser of C87 and the importer of C88 | induction over the shape, with C88 |
| C141 | the schema printer and parser of C100 | the inferred type is one that C100 covers |
| C142 | `deduce` with the parsers of C98 and C127 | induction over the value; the parsers on each kind of text |
| C143 | `extract`, `extract_value` over bytes, with exceptions and undefined behaviour | induction over the encoding, induction over the depth, and a lemma that nothing depends on what follows |
| C144 | `convert`, log creations and `zeekify` | case analysis over the types, induction over the columns |
| C145 | the reader: streams, builders and slices | an invariant over the events so far; a second one for arbitrary messages |
| C146 | chunks with references, handles, and threads that release them one action at a time | an invariant that relates the counts to handles, slices and pending actions, and each deletion to what is left of it |
| C147 | `inspect` over bytes | arithmetic of the four bytes of the size |
| C148 | the read loop over arbitrary results of `read(2)` | induction over the calls |
| C149 | the counters of `posix_filesystem` | induction over the requests |
| C150 | the reader with a blueprint per layout over an abstract source of randomness | a run is a chain of slices; sums and turns by induction along it |
| C151 | the same | the index of the distribution against the columns, by mutual induction over types |
| C152 | the parser of the attribute | unfolding over numerals; induction over types for the refusal |
| C153 | the parser of sizes | soundness and completeness against a grammar; the finite part (units) by evaluation |
| C154–C156 | the functions that turn options into limits | case analysis |
| C157 | the writer over an output whose operations may fail at any time | invariant over the slices written; a reader of streams as the specification |
| C158–C160 | vectors with lookup by scan or binary search | invariants over histories; functions as the specification |
| C161 | a stream over `write(2)` as an arbitrary function | invariant over rows |
| C162 | the two ways to measure | soundness and completeness against the grammar of sizes; induction over listings |
| C163 | a transition system of handlers and monitor, one step per access to a flag | invariants over schedules |
| C164 | the table-driven loop | linearity of the shift register over exclusive or; the table exhaustively |
| C165 | the lookup of columns over the enumeration of C49, and the iterators | refinement to the list of columns |
| C168–C169 | the table of layouts and the set of unknown types over histories | invariants over histories |
| C170 | a walk through a tree, sorted by components of paths | induction over trees; uniqueness of sorted lists |
| C171 | the printer and the parser, part by part | each part is read up to the first character of the next |
| C172 | the parser of the attribute and the factory | the parser accepts exactly the grammar; the factory takes the first attribute that it finds |
| C173 | the loop of partition_synopsis::add | invariant over the slices: marked fields have no synopsis |
| C174 | the parser, part by part | each part is read up to the first character of the next; back: the text is put together from what each part consumed |
| C175 | the printer, and a reader of messages as specification | induction over the headers |
| C176 | the arena with addresses as numbers, histories as an inductive relation | invariant: nonempty blocks end below the free end, and are pairwise apart |
| C179 | the writers by name with their buffers, the previous layout, calls as a list | induction on the calls with what is in every file as the invariant |
| C182 | parsers with attributes: each call gets an object (unused, character, string) and returns it, also after a failure; an uninitialised character is a parameter | induction on the expression with the object as state: the object afterwards is the object before with the kept text stored, unless a replacing parser meets text |
| C185 | printers as a family indexed by the type of the values; a call returns success and what was written, also after a failure | induction on the expression: success, what is written on success, and what never fails, never writes, or writes nothing when it fails |
| C193 | options as texts, the levels of VAST and spdlog, the logger with its level and those of its sinks | case distinction over all levels; texts by the function that recognizes them |
| C191, C192 | the bytes of the address with what the kernel makes of them, the world with the variable and what was delivered; the parser for two numbers | case distinction on the first byte; induction on digits |
| C189, C190 | the functions on numbers below 2^63 | bounds of the logarithm; squares of numbers between powers of two |
| C186–C188 | commands as functions of the steps that fail and the messages that come, to a log of what they start, stop and receive, and what they return | one lemma per combinator (step, guard, node) and induction on the messages for the loops |
| C183, C184 | expressions with references to rules; calls have a bound on their depth, of which the answers are independent | soundness by induction on the depth, completeness by induction on derivations; termination by induction on the length of the text, the rank of the rule and the expression |
| C180, C181 | parsers as expressions; a call returns success and the position, also after a failure; loops have fuel | induction on the expression: meaning as a parsing expression grammar, which is shown to be a function; a bound on loops by the length of the rest |
| C177, C178 | memory with padding and the overloads as a relation between values and bytes, by recursion on the type | both ways of hashing give the pieces one after the other; they are read from the end, by induction on the type |
| C166–C167 | casts modulo 2^n, repeated squaring, the two recursions of the logarithm | induction, arithmetic |
| C102, C103 | indexing of slices by a partition, distribution of predicates to indexers, combination of their answers, then the whole historical query | invariant of the partition over the list of slices; induction on the expression; composition with C21 and C25 |
| C52, C53, C65 | transformation engine, transform steps, schema | list induction |

## Trusted base

* Lean's kernel (4.33.0).
* Axioms: at most `propext`, `Classical.choice` and `Quot.sound`.  `AXIOMS.md`
  lists them for every theorem (`tools/axioms.py` regenerates it).
  No axioms of our own, no `sorry`, no `native_decide`, no `bv_decide`.
* Reading fidelity.  The model was transcribed by hand from the source.  Each
  definition cites the lines.  Nothing in Lean checks the transcription.
* The statements in `Spec.lean`/`Props.lean`.
* The assumptions about code outside of the repository, next.

### Assumptions about CAF and the standard library

* An actor handles one message at a time; a handler is one atomic step.
* Messages arrive in any order, which allows more schedules than there are.
  Where an order is used, the model says so (C39: no `done` overtakes the
  response).
* Delivering a response promise a second time, or a default-constructed one, has
  no effect (C41, C43).
* A request to an invalid actor handle is answered with an error (C43).
* A response handler runs for the reply to its request, once (C40, C42).
* `std::sort`, `std::partition`, `std::priority_queue` and hash containers do
  what the standard says.  Orders that the standard leaves open are universally
  quantified.
* `uuid::random` yields fresh values (C30, C35).
* System calls take effect in order (C33, C31).  The code never calls `fsync`, so
  states that only a power failure can leave are not covered.

### What is modelled

| directory | source (under `libvast/`) |
|-----------|---------------------------|
| `Varbyte` | `vast/detail/varbyte.hpp` |
| `SetOps` | `vast/detail/set_operations.hpp` |
| `Bitmap` | `vast/{bitmap_base,ewah_bitmap,wah_bitmap,null_bitmap,bits,word,bitmap_algorithms,ids}.hpp`, `src/{ewah_bitmap,wah_bitmap,null_bitmap,ids}.cpp` |
| `Index` | `vast/{base,binner,coder,bitmap_index}.hpp`, `vast/index/*`, `src/index/*`, `src/value_index.cpp` |
| `Data`, `Address` | `src/{data,operator,view,address,subnet}.cpp` (comparison, operators, containment) |
| `Expr` | `src/expression.cpp`, `src/expression_visitors.cpp` |
| `Synopsis`, `MetaIndex` | `vast/{min_max_synopsis,bool_synopsis,bloom_filter,bloom_filter_synopsis}.hpp` and friends, `src/system/meta_index.cpp`, `src/partition_synopsis.cpp` |
| `Taxonomy` | `src/taxonomies.cpp` |
| `Types`, `Record`, `Schema` | record types in `src/type.cpp`, `src/data.cpp` (records), `src/schema.cpp` |
| `Slice` | row selection in `src/table_slice.cpp` |
| `Transform` | `src/transform.cpp`, `src/transform_steps/` |
| `RangeMap`, `Cache` | `vast/detail/{range_map,lru_cache,cache,flat_lru_cache}.hpp` |
| `Archive`, `ArchiveActor`, `LocalStore` | `src/segment_store.cpp`, `src/segment.cpp`, `src/system/{archive,local_segment_store}.cpp` |
| `Save` | `src/io/save.cpp`, `src/io/write.cpp`, `src/detail/posix.cpp` |
| `Importer`, `Ingest`, `Scheduler`, `Supervisor`, `Evaluator`, `Exporter`, `DiskMonitor`, `Recovery` | the actors in `src/system/` of these names (`Ingest`, `Scheduler` and `Recovery` are parts of `index.cpp`) |
| `MsgpackSlice` | `src/msgpack_table_slice_builder.cpp`, `src/msgpack_table_slice.cpp`, `type_check` and `materialize` of `src/view.cpp`, without the FlatBuffers table |
| `DataText` | `vast/concept/printable/vast/data.hpp`, `vast/concept/parseable/vast/data.hpp` and the printers and parsers they use (numbers, times and durations, addresses, subnets, strings, patterns, containers); not the arithmetic on `double`, nor the printers of reals, durations and times; `inet_ntop` and `inet_pton` after glibc |
| `Base64`, `Escape`, `Msgpack` | `src/detail/{base64,string}.cpp`, `vast/detail/{escapers,coding}.hpp`, `src/msgpack.cpp`, `vast/{msgpack,msgpack_builder}.hpp` |
| Reader | `detail/line_range`, `detail/absorb_line`, `detail/fdinbuf` (time-outs), JSON/syslog/CSV `read_impl`, `multi_layout_reader`, `single_layout_reader`, `system/source`, `system/datagram_source` |
| Sha1 | `concept/hashable/sha1` |
| CommunityId | `community_id.hpp`, `icmp.cpp`, `flow`, `detail/coding.hpp` (hex) |
| Pcap | `plugins/pcap/main.cpp` (reader): `decapsulate`, `read_impl`, the flow table |
| QueryText | `concept/parseable/vast/expression.cpp` (connectives), `concept/printable/vast/expression.hpp` |
| Sigma | `detail/sigma.cpp`, `concept/parseable/string/symbol_table.hpp`, `expression_visitors.cpp` (`hoister`) |
| Calendar | `concept/printable/std/chrono.hpp` (time points), `concept/parseable/vast/time.hpp` (dates, UNIX times), `concept/parseable/numeric/real.hpp` |
| Number | `concept/printable/numeric/real.hpp`, `concept/printable/std/chrono.hpp` (durations), `concept/parseable/vast/time.hpp` (durations) |
| Json | `concept/printable/vast/json.hpp`, `format/ostream_writer.hpp`, `src/format/json.cpp`, `format/json.hpp` (one line), `format/json/default_selector.hpp` |
| Explorer | `src/system/explorer.cpp` |
| Sink | `src/system/sink.cpp` |
| Zeek | `src/format/zeek.cpp`, `format/zeek.hpp`, `printable/numeric/real.hpp` |
| SchemaText | `parseable/vast/schema.hpp` (`symbol_resolver`, `symbol_map_parser`, `schema_parser`), `src/schema.cpp` (`load_schema`), `src/concept/parseable/vast/type.cpp` |
| SchemaText (texts) | `src/concept/parseable/vast/type.cpp`, `printable/vast/{type,attribute,schema}.hpp`, `src/schema.cpp` (`serialize`) |
| ArrowSlice | `src/arrow_table_slice_builder.cpp`, `src/arrow_table_slice.cpp`, `src/table_slice.cpp` (`at`) |
| Partition | `src/system/active_partition.cpp`, `src/system/passive_partition.cpp` (what is indexed and asked), with `Evaluator`, `Expr`, `MetaIndex` and `Archive` |
| Processor | `src/system/query_processor.cpp`, `src/system/counter.cpp`, `src/system/count_command.cpp`, `src/system/eraser.cpp`, the answers of `src/system/index.cpp` |
| Csv | `src/format/csv.cpp` (writer), `vast/detail/escapers.hpp` (`make_double_escaper`) |
| Shutdown | `src/system/terminator.cpp`, `src/system/shutdown.cpp`, `vast/system/terminate.hpp`, exit handler of `src/system/node.cpp` |
| Config | `src/system/configuration.cpp`, `merge_settings` of `src/detail/settings.cpp`, the configuration part of `vast/vast.cpp` |
| Plugins | `get_plugin_dirs`, `resolve_plugin_name`, `load` of `src/plugin.cpp` |
| Pivot | `src/system/pivoter.cpp` |
| Registry | `src/system/type_registry.cpp`, `src/taxonomies.cpp` (27-177) |
| NodeStart | `src/detail/pid_file.cpp`, `src/db_version.cpp`, `src/system/spawn_node.cpp` (56-102) |
| Node | `src/system/component_registry.cpp`, `vast/system/component_registry.hpp` (find), `src/system/node.cpp` (84-116, 190-217, 334-361, 465-599, 738-753) |
| TransformConfig | `src/system/make_transforms.cpp`, and its uses in `src/system/{spawn_source,import_command,spawn_importer,spawn_exporter,make_sink}.cpp` |
| Blocking | `src/system/import_command.cpp` (`--blocking`), the flush listeners in `src/system/{importer,index,partition}.cpp`, `vast/detail/notifying_stream_manager.hpp` |
| SynopsisStore | `src/partition_synopsis.cpp`, `src/synopsis.cpp`, `src/synopsis_factory.cpp`, `src/bloom_filter_parameters.cpp`, `src/bloom_filter_synopsis.cpp`, `vast/{address,string,buffered}_synopsis.hpp`, `src/system/index.cpp` (`extract_partition_synopsis`); not the encoding in bytes |
| Syslog | `vast/format/syslog.hpp` (parsers), `src/format/syslog.cpp` (events; the loop over lines is in Reader) |
| Uuid | `src/uuid.cpp` (without hashing and the FlatBuffers table), `vast/concept/{printable,parseable}/vast/uuid.hpp`, `src/system/disk_monitor.cpp` (the search for partitions) |
| Accountant | `src/system/accountant.cpp` (without status, telemetry and the text of lines), `src/accountant/config.cpp`, `vast/accountant/config.hpp`, `vast/component_config.hpp`, `vast/system/instrumentation.hpp` |
| Client | `vast/concept/parseable/vast/{endpoint,port}.hpp`, `src/system/{start,get,sink}_command.cpp` (without actors and streams), `src/system/connect_to_node.cpp` (up to the connection), `src/system/read_query.cpp`, `src/system/pivot_command.cpp` (its arguments) |
| Infer | `src/system/infer_command.cpp` (without the conversion of the command line; the name of a Zeek record is left out) |
| Broker | `plugins/broker/src/zeek.cpp`, `reader.cpp`, `src/detail/zeekify.cpp` (without the Broker library and its connection) |
| Chunk | `src/chunk.cpp`, `vast/chunk.hpp`, `src/io/read.cpp`, `read` of `src/detail/posix.cpp`, the counters of `src/system/posix_filesystem.cpp` (without `incore` and the writing of files, see Save) |
| TestGen | `src/format/test.cpp`, `vast/format/test.hpp`, `quantile` of `vast/detail/random.hpp` (not the random numbers themselves, nor the text computed from a sample) |
| Options | `vast/concept/parseable/vast/si.hpp`, `get_bytesize`, `spawn_disk_monitor.cpp`, `validate` of `disk_monitor.cpp`, `spawn_explorer.cpp`, `make_source.cpp` (options only), the computation of the number of events in `source.cpp` |
| ArrowWriter | `src/format/arrow.cpp` (Arrow itself is trusted) |
| VectorMap | `vast/detail/vector_map.hpp`, `stable_map.hpp`, `flat_map.hpp` and the sets |
| Output | `src/detail/fdoutbuf.cpp`, `write_buf` and `flush` of `ostream_writer.cpp`, `compute_dbdir_size`, `execute_blocking`, `recursive_size.hpp` |
| Signals | `src/system/signal_monitor.cpp` |
| Crc | `src/concept/hashable/crc.cpp` |
| Project | `vast/project.hpp` |
| Arith | `vast/detail/narrow.hpp`, `vast/detail/math.hpp` |
| Select | `vast/format/json/field_selector.hpp`, `suricata_selector.hpp`, `zeek_selector.hpp` |
| Dir | `vast/detail/filter_dir.hpp` |
| Uri | `vast/uri.hpp`, `concept/parseable/vast/uri.hpp`, `concept/printable/vast/uri.hpp` |
| Http | `vast/http.hpp`, `src/http.cpp`, `concept/parseable/vast/http.hpp`, `concept/printable/vast/http.hpp` |
| Arena | `vast/detail/short_alloc.hpp` |
| HashAppend | `vast/concept/hashable/hash_append.hpp`, `uhash.hpp` |
| ZeekFiles | `writer::write`, `writer_child` of `src/format/zeek.cpp`, `vast/format/ostream_writer.hpp`, `src/format/ostream_writer.cpp` |
| Combinator | `vast/concept/parseable/core/*.hpp` but attributes, rules and actions; `string/{char_class,literal,string,symbol_table}.hpp` |
| Combinator/Text | attributes of `core/{ignore,sequence,choice,kleene,plus,maybe,not,difference}.hpp`, `string/{char_class,string}.hpp`, `detail/{container,char_helpers}.hpp`, for characters and texts |
| Grammar | `vast/concept/parseable/core/rule.hpp` with the combinators but guards and attributes; the grammars of `src/concept/parseable/vast/{expression,type}.cpp`, `vast/concept/parseable/vast/data.hpp` and `src/detail/sigma.cpp`, their scalars being parameters |
| Printer | `vast/concept/printable/core/*.hpp` but `ignore`, `string/{any,char,literal,string}.hpp`; tuples as pairs |
| Commands | `src/system/{sink,explore,pivot,import}_command.cpp`, without logging, reports and the accountant; `vast/scope_linked.hpp` |
| Digest | `vast/detail/bit.hpp` for `int64_t`, `src/value_index_factory.cpp` (the width of digests) |
| Notify | `src/systemd.cpp`, `uds_sendmsg` of `src/detail/posix.cpp`, `parsers::u64` |
| Logging | `setup_spdlog`, `loglevel_to_int`, `vast_loglevel_to_spd` of `src/logger.cpp`, the macros of `vast/logger.hpp` |

### What is not modelled

The CAF runtime and its streaming layer, memory allocation, the C++ object
model, FlatBuffers and Arrow byte layouts, regular expressions (a pattern is an
arbitrary predicate on strings), hash functions other than SHA-1 (arbitrary
functions), the limits of the exponent range of doubles (their rounding is
modelled where texts of numbers are concerned), logging, metrics, the parts of
`format/` and `concept/` that the table above does not name, the command line,
spawning and shutdown of components, and plugins.  Each model file lists
its own simplifications at the definitions concerned.

## Disagreements between code and property

Each item was found while proving and is a theorem with the suffix `_refuted`,
unless marked (read), which means: seen in the code, outside of the model.

Bitmaps and indexes
* `all<Bit>` and `is_subset` on empty bitmaps; `select<false>(bm, npos)` (C04).
* `null_bitmap` iteration after a homogeneous last word (C06); equality of
  null bitmaps whose size is a multiple of 64, and of WAH bitmaps built by
  different calls (C55).
* The counter of the loop in `ewah_bitmap::flip` has 32 bits, so the loop never ends for bitmaps with more than 2^32 blocks (C01_flip_refuted; `Bitmap/FlipLoop.lean` has the loop as it is, `Bitmap/Ewah.lean` with an unbounded counter).
* Skipped rows of range coders answer queries as the value 0 (C10).
* Unsigned division in the decimal binner for negative times; `!=` loses rows
  of a bin; NaN terminates the index; bases too small for the domain alias (C11).
* Subnormal doubles of equal exponent share a key (C12).
* String index: operand with byte 0xff, maximal size divisible by ten,
  truncation (C13).
* `address in x/0` is an error; subnet index and /0 rows; mixed families (C14).
* `not_ni` loses trailing empty lists; over-long lists lose elements (C15).
* Hash index: unseen operands collide; the 33rd collision fails the append (C16).
* `!= nil` returns gap rows; null rows and `<`, `not_in`, `in [nil]` (C17).

Synopses, catalog, expressions
* `!=` and `!in` on min-max synopses (C18), patterns on Bloom synopses (C20).
* Catalog lookup: repeated strings in disjunctions, negated `#field`, glob
  extractors, comparisons satisfied by nil, NaN literals (C21).
* Normalization with nil nodes, swapped `~` operands, extractors that stand for
  several values (C22); flattening is not idempotent (C23); flip of `~` (C24).
* The store's check drops or keeps rows for disjunctions with metadata,
  metadata-only expressions with preserved IDs, unresolved fields (C25).
* Concepts: chains of 100 and more, a loop over a growing deque, recursive and
  empty models (C26); negated operators, leaves that are no concepts, errors
  below a negation, nested layout names (C66).
* Owned data and views differ for `~`, pattern equality and container order
  (C54).

Storage
* `range_map::erase(l, r)` leaves empty intervals (C29).
* Segment store: interleaved ID ranges answered twice, unordered slices in a
  builder, failed writes lose events, capacity zero, erasure during a session
  (C30); crash between an erasure and the deletion of its file (C31).
* (read) leftover `.tmp` files are registered as segments.
* `lru_cache` with capacity zero or keys that moving changes, `flat_lru_cache`
  of size zero (C32); (read) `cache::operator[]` does not compile.
* `io::save` opens its temporary without truncation (C33); (read) no `fsync`.
* Importer: torn or failed writes of its state file (C34).
* Local store: empty for queries after the stream end, one slice that cannot be
  tailored fails the whole query, metadata-only queries with preserved IDs,
  partial erasures are never written, erased events still answer (C43).
* Index restart: orphaned partition files, lost active partition, counts after a
  crash, erasure of unconfirmed partitions, a null chunk when a partition is
  erased twice, failed removals acknowledged (C67).  (read) The error handler for
  a failed indexer snapshot delivers only if the promise is *not* pending.

Actors
* `taste-partitions = 0` silently drops queries (C35, C39).
* Empty slices join an oversized partition; a full partition stays active until
  the next slice (C36).
* Negations make a partition's result depend on the order of replies (C37).
* Exporter: `extract` of huge numbers, `extract` after `extract all`, shutdown
  with cached events (C38), shutdown while partitions are running (C39).
* Archive: requests of different queries overtake each other, and so do those of
  cancelled queries (C41).
* Disk monitor: parallel purges, steps that overshoot (C42).
* (read) erasing a partition whose file is written but not acknowledged.

Codecs, types, records
* Base64 decoding of unpadded input writes past the buffer (C58).
* `byte_escape` does not escape the backslash, `double_unescape` drops
  characters, `json_unescape` reads outside its input (C46); `split` ignores an
  escape at the start (C60); `replace_all` of an empty string is endless (C61).
* MessagePack: skipping `str8`/`bin8`, `timestamp32` after 2038, negative
  fractional times, validated maps of 8 to 15 entries (C47).
* MessagePack slices: the builder checks only the first element of lists and
  maps, everything passes for the null type, records shift the row (C68).
  (read) A container that fails to encode resets the buffer and with it all
  earlier rows, while their offsets stay; `implementation_id` says Arrow.
* `each` on empty nested records, `num_leaves` through aliases (C49); `resolve`
  of keys with prefix siblings, any byte as separator, `flat_field_at`'s trailing
  dot (C62); `remove_field` by path removes a sibling named like the next
  component (C63); `assign` has no effect (C64).
* The recursion bound of record `flatten` and `merge` is spent on siblings (C51).
* Transforms without steps lose IDs; repeated event types apply twice (C52);
  deleting a record field; `replace` keeps the old type (C65).

Text
* Printing: the smallest integer overflows; backslashes, control and non-ASCII
  characters in strings, slashes in patterns, unnamed records, names with other
  characters, and enumerations do not read back; `5d::1` reads as a duration
  (C69).
* Reading: counts and suffixes wrap, the subnet prefix wraps modulo 256 before it
  is checked and a prefix of 33 to 128 of an IPv4 address gives `::/0`, a negative
  component of a duration is skipped, digits after the 20th become a fraction
  (C70).
* (read) `integral_parser::accumulate` looks at the character behind the input
  before it compares the iterators.

Readers and sources
* A line that ends in a carriage return and is followed by a read time-out is not
  delivered; the next line is glued to it (C71, C72).
* A call may deliver more events than it was asked for, because events buffered
  when the input stalled come on top; so `import -n` overshoots. Events buffered
  when the source is told to exit are dropped. A limit of 0 fails an assertion in
  `import` (`export` reads it as no limit) (C72, C73).
* After a pause longer than the batch timeout, all events of a datagram but the
  first are lost; a datagram with more events than the stream has capacity for is
  cut off (C74).
* A CSV line that is refused after some of its cells were parsed leaves them in
  the builder: later rows shift, or finishing the slice fails an assertion. A
  refused line with all its columns is delivered as an event, and slices may
  exceed the requested size (C75).
* (read) `multi_layout_reader::finish` dereferences the builder before checking it
  for null; the syslog reader increments the batch counter after a flush.

Flows and packets
* Community IDs do not tell a mixed IPv4/IPv6 flow from another one, because the
  message has no field for the address family (C77).
* (read) the setter of `port::number` ORs the new number into the old one; `==` on
  ports treats the unknown protocol as a wildcard, so it is not transitive and
  disagrees with the hash; ICMP types are narrowed to eight bits.
* The PCAP reader takes only the first four bytes of IPv6 addresses; it uses the
  length of the frame on the wire rather than the captured length and reads beyond
  truncated frames, beyond short TCP headers and short tagged frames; it asserts
  that there is a transport header; one malformed frame ends the import and drops
  the events still in the builder (C78).
* A full flow table may evict the flow just counted, whose cutoff then starts over;
  timestamps that go back evict active flows; a cutoff of 0 lets the table grow
  without limit; a table size of 0 hangs the reader (C79).

Queries and Sigma rules
* The printer writes double negations and empty connectives in a form that the
  parser refuses; blanks in front of a query are refused, because neither the parser
  nor `read_query` trims them (C80).
* In Sigma rules, `startswith` and `endswith` are treated as `contains`; a wildcard
  in a value drops `contains`; the other characters special in regular expressions
  are not escaped; an escaped wildcard becomes a bare regular expression operator;
  comparisons regard case (C81).
* In Sigma conditions, an identifier that begins with `not` is read as a negation; a
  wildcard behind the full name of an identifier is refused; a pattern swallows the
  closing parenthesis behind it; patterns select identifiers that merely contain
  them; a misspelt identifier matches every event (C82).
* (read) an empty search identifier fails an assertion in the symbol table; a pattern
  that is no valid regular expression throws `std::regex_error`.

Dates and times
* A point in time with a fraction of a second may come back one nanosecond short
  from its own text, because the fraction is read as a `double` and truncated (C84).
* The text of a point in time before 1900 is printed but refused by the parser (C84).
* The parser accepts days up to 31 in every month and rolls over into the next
  month (C84).
* (read) years after 2262 overflow the 64-bit nanoseconds without an error;
  durations are printed with two decimals, which loses precision.

Real numbers and durations
* The printer rounds the fraction but drops a carry into the whole part: 1.999 s are
  printed as `1.1s` and read back as such (C85, C86).
* Numbers from 2^64 on, NaN and infinities are converted to `uint64_t`, which is
  undefined (C85); `abs` of the least duration overflows (C86).
* Two decimals of a unit lose precision: different durations have the same text (C86).

JSON
* A real close to a whole number but not whole, such as 2^-24, is printed as `0.`, which
  is not JSON (C87). So are maps whose keys are not strings, and strings that are not UTF-8.
* Enumerations in lists or of a type with another name are printed as numbers (C87), which
  the import refuses (C89). Patterns are printed without slashes, which the import asks for.
* The import wraps negative numbers in columns of counts, takes no values for types with
  another name, and ends with an error on a record in a list that lacks a field (C88).
* A layout with a record never matches an object if there are several types (C90).

Explore and sink
* `forward_results` compares `unseen.size()`, which is the last new ID plus one, with the
  number of rows. For slices at the begin of the archive the shortcut is taken although
  some rows were sent: events are delivered twice (C91).
* The limit 0 is documented as unlimited, but nothing is sent (C91).
* The bounds of a time box go through text, which may lose a nanosecond (C84): with
  `--before` alone an event may lack in its own context (C92). Events with several
  timestamps match if one is after the begin and another one before the end.
* The column of timestamps is looked up by its name as a suffix, so that a nested field with
  the same name hides it (C92).
* If the last query cannot be started, the explorer never ends (C93).

Zeek logs
* `print_header` writes the separator as a raw tab; `parse_header` looks for `\x` and two digits
  and gets an empty separator, and then splits at an empty separator: an assertion fails. No
  exported log can be imported (C97). With `disable-timestamp-tags` the line `#open` is missing too.
* Enumerations are exported as `enumeration`, maps as `map[...]`; `parse_type` knows neither (C95).
* `parse_type` takes any text between `set`, `vector`, `table` and the first bracket and behind the last (C95).
* A column of type pattern gets strings, which the builder refuses; in the middle of a row the
  slice is then finished within a row, which fails an assertion (C96).
* `byte_unescape` gives up on an escaped backslash at the end; the string becomes empty (C96).
* Unset elements of containers are errors, or the string `-` (C96). Empty last fields drop the record (C96).

Schemas
* A circular definition is an error, but if an earlier directory defines one of its names, the
  circle is resolved with that definition or not, depending on the order of the hash table (C98).
* An operand of `+`, `<+`, `+>` or `-` that is not a record (an alias of one, for instance) fails an
  assertion instead of an error (C98).
* The attributes of an expression are lost (C98).

Schema texts
* Where a type is expected and neither a record nor an identifier follows (`type x = `, `list<>`,
  `record{a: }`, `x + (y)`), the parser for operands calls the parser for expressions, which calls the
  parser for operands: the stack overflows instead of an error (C99).
* Schemas are serialized as texts, and errors of reading them are ignored. A record without
  fields, a field name, label or attribute value that would need quotes, or a named type that is
  not part of the schema empties the schema at the receiver. An empty schema is not received
  at all. The order of types, aliases of unnamed types, and attributes of aliases change (C100).

Arrow table slices
* `decode` has no case for aliases. `table_slice::at` with a type replaces an alias by its value type, but `at` without
  a type (used by the transform steps delete, replace and hash) and `append_column_to_index` (which only tests call) do
  not: an alias column becomes null in transformed slices. Aliases within lists, maps and records are null for all
  readers (C101).
* A container with an element of a wrong type is refused after its first elements were appended; they become part of
  the next row. A record value with a wrong number of fields leads to reads or writes outside of arrays (C101).

Partitions
* `#field` predicates compare names of columns with names of layouts by prefix: the layout `a` also selects the columns
  of a layout `ab` (C102).
* A predicate that an index cannot answer counts as no hits. So does a query that cannot be resolved (C102).

Deleting, counting and aging
* An erase query deletes what the indexes report. The time index rounds to seconds, so that `ts < 1.5s` deletes an event at
  1.7 s; a negated comparison over several columns deletes too much as well (C104).
* Null satisfies `bytes < 1` in an evaluation, but no index reports it (C102).
* `vast.max-taste-partitions: 0` is accepted. Then `vast count` never ends (C105), and neither does an aging cycle (C106).
* A partition that cannot be loaded any more is left out of a count without notice (C105).
* A `run` message from someone else while the timer is on its way can lead to an eraser without a timer (C106): if the timer
  fires during the cycle, it is dropped, and at the end of the cycle the promise is delivered instead of setting a timer.
* `spawn_eraser` checks that the aging query can be parsed, not that it can be normalized and validated. With such a query
  the eraser logs one error and never runs again; a trigger gets no response (C106).
* query_processor.hpp:82 says that messages that are not expected are skipped until they are; the constructor does not
  install the handler for it, so that they are dropped.

CSV export
* The header is written when the name of the layout changes. If a layout gets new columns under the same name, the rows
  follow the old header (C107).
* Patterns are not quoted: one with a comma makes an additional cell (C107).
* Bars in strings are doubled everywhere, also outside of lists, so that a reader of RFC 4180 sees them twice (C107).
* `[]` and `[""]`, and `null` and `[null]`, have the same text (C107).
* A map within a list ends the list without an error, since `render` for lists drops the error (csv.cpp:83-86); a map in
  a column ends the export (C107).

Shutdown
* `vast.shutdown-grace-period: 0s` means that nothing is ever killed and that no request times out: a component that does
  not terminate blocks the shutdown for good (C109).
* If the grace period is below five milliseconds, the kill timeout is zero (node.cpp:645) and the error follows the kill
  messages at once (terminator.cpp:143-146).
* The request of the node has the timeout `grace + kill`, and the terminator gives up after the same time, so that either
  can come first. In both cases the core is told to terminate although an auxiliary component may be alive (C108, example).

Configuration
* doc/cli/vast.md and the change log say that the user's configuration file takes precedence over the system-wide one.
  `config_dirs` lists the user's directory first and files are merged in this order with the later one overwriting, so the
  system-wide file wins (configuration.cpp:41-54, 172-197; C110_user_refuted). The same order is used for plugin
  configurations (plugin.cpp:216).
* The change log says that `--plugins=a` and `vast.plugins: [b]` load both. `--plugins` and `--plugin-dirs` are put into the content
  before the files are, and `put` overwrites: only `b` is loaded (configuration.cpp:106, 267; C110_plugins_refuted). The
  environment variable VAST_PLUGIN_DIRS is overwritten, too.
* A key with a dot (`vast.endpoint: x`) and a nested key in different files are both kept by `merge`; `flatten` then takes the
  first one, so that the less specific file can win (C110_dotted_refuted).

Plugins
* With `all` the loop over a directory has `break` for an entry that is not a regular file (plugin.cpp:109-110), so a
  subdirectory hides the plugins listed after it (C111_all_refuted).
* A plugin linked into the program is always enabled, and naming it in `vast.plugins` makes the program fail with "failed to
  find plugin", because its name is only removed from the bundled plugins (plugin.cpp:118-135; C111_static_refuted).

Pivot
* The values that were asked for are remembered without the field (pivoter.cpp:118-124): if results have both `uid` and
  `community_id` as link fields, a value of one is not asked for in the other (C112_two_fields_refuted).
* The column is looked up by the end of its name (pivoter.cpp:110), so a nested field in front of the link field is used instead
  of it (C112_column_refuted); if the link field is a record, the assertion at table_slice_column.cpp:42 fails
  (C112_record_refuted).
* If an exporter cannot be started, its values are lost (C112_lost_refuted), and if nothing else is going on the pivoter never
  ends, because the error handler does not call `quit_if_done` (pivoter.cpp:159-162; C113_failed_refuted).

Registry
* The check for duplicate concepts of a concept looks at its fields (taxonomies.cpp:71): a concept with the name of a field is
  dropped, depending on the order of definitions, and concepts that are named twice are kept twice (C114_concepts_refuted,
  C114_order_refuted).
* The type registry is saved when it ends and at no other time (type_registry.cpp:149).  After a crash it does not know the layouts
  of stored events, and the fields of a concept that only they have are left out of queries as soon as another field of the concept
  is known (C115_crash_refuted).

NodeStart
* The PID file is opened without `O_TRUNC` (pid_file.cpp:57): after a crash of process 12345, process 99 leaves `99345` in the file,
  and the next process starts a second node (C116_stale_refuted).
* The lock on the PID file is taken after the check and given back before the node runs (pid_file.cpp:64-81), so two processes that
  start at the same time both run a node (C116_race_refuted).
* A crash between creating and writing leaves an empty PID file or an empty version file; then no node can be started until somebody
  removes it (C116_empty_refuted, C117_crash_refuted).
* `if (auto first_newline = sv.find('\n'))` (db_version.cpp:69) is true for `npos`, and false for a newline at the beginning
  (C117_newline_refuted).

Node
* `spawn_command` checks whether a component can be registered only after it has started it (node.cpp:521-534): a second index, or a
  source whose generated label a user has taken, is running but unknown to the node (C118_second_refuted, C118_label_refuted).
* `is_singleton` is not consulted if there is a label, and `atom::put` looks for the type but registers a generated label, so that two
  indexes are possible (C118_given_refuted, C118_put_refuted).
* `find<Handles...>` looks for labels, and users can choose them: a source called `archive` is sent the messages for the archive
  (C118_lookup_refuted).
* `handle_taxonomies` does not look at `tearing_down` (node.cpp:539-543), so that an exporter is started after the registry was cleared
  (C118_exit_refuted).
* The DOWN handler relies on `component` (node.cpp:592), which is empty if the component was killed while its DOWN message was in the
  mailbox (C119_kill_refuted).

TransformConfig
* `spawn_source` gives a source in the node the transforms of the server's import (spawn_source.cpp:34-35), which the importer applies
  again: the events of such a source are transformed twice (C121_twice_refuted).
* If `vast.transform-triggers.import` is not a list, it is ignored (make_transforms.cpp:82-88, with a TODO; C120_misspelt_refuted).

Blocking
* `vast import --blocking` subscribes when the source has ended; the subscription goes to the importer and the index as messages, the events
  as streams, so that it may overtake them (C122_route_refuted); the help text (application.cpp:504) promises that the importer has forwarded
  all data. Partitions that are full are not waited for (C122_partition_refuted), and neither is the store (C122_store_refuted).

SynopsisStore
* The rate of a Bloom filter is written with `std::to_string`, with six digits; rates below 5·10⁻⁷ become zero (C124_rate_refuted).
* A type synopsis is written as a field without a name (partition_synopsis.cpp:102-103), so that a column without a name becomes one
  (C124_name_refuted).
* If `shrink` returns a null pointer, the buffered synopsis stays and cannot be written (C125_rate_refuted); `vast.meta-index-fp-rate` is not
  checked.
* `extract_partition_synopsis` ignores the error of `unpack` (index.cpp:141): for a file with an entry that cannot be read, the extracted
  file lacks this and all later entries. No file that the node writes under the hypotheses of C124 has such an entry.
* The synopses for Booleans, strings and addresses assert that the type is not an alias, but the factory makes them for aliases, too
  (C125_alias_refuted).

Syslog
* `maybe_nil` wants a space after the dash, so that a message that ends with its nil structured data, which RFC 5424 allows, is unknown
  (C127_nil_data_refuted).
* Structured data elements need at least one parameter, and parameter values no control characters (C127_no_parameters_refuted,
  C127_control_refuted).
* A message that consists of a byte order mark keeps it (C127_mark_refuted).
* The structured data do not get into the event (C128_data_refuted; there is a TODO in the code).

Uuid
* `uuid_parser` never rejects a character that is no digit (C129_digits_refuted), and its test for the closing brace is the wrong way round
  (C129_braces_refuted). So the disk monitor asks the index to erase partitions that do not exist when there are other files with names of 32
  or 36 characters (C131_stray_refuted).

Accountant
* `record_internally` finishes a slice when the number of rows equals the slice size, so a smaller slice size may stop the ingestion of metrics
  (C132_shrink_refuted). Slices that wait when the accountant exits are lost (C132_exit_refuted).
* `apply_config` acts on switches between enabled and disabled only, so a change of a path has no effect (C133_path_refuted), and it
  never closes the datagram socket (C133_disable_refuted). `make_output_stream` does not report that a file cannot be opened.
* `to_accountant_config` looks for `file_sink.real-time` where the documentation says `file-sink.real-time` (C134_real_time_refuted), and
  ignores the result of `extract_settings` (C134_invalid_refuted).

Client
* `u16` wraps, so an endpoint with port 70000 is accepted as port 4464 (C135_number_refuted), and `vast get` with an id of more than 64 bits
  writes another event (C138_large_refuted).
* `start_command` ignores the protocol that `connect_to_node` checks (C136_protocol_refuted).
* `read_query` checks for arguments without its offset, so `vast pivot` cannot read a query from a file or the standard input
  (C137_pivot_refuted), and `pivot_command` uses the first argument without checking that there is one (C137_undefined_refuted).
* `sink_command` stops at the end of the exporter and misses a failure of the sink (C139_late_refuted).

Infer
* `infer_json` splits its input at `\r\n` only, so a usual file with more than one event is not JSON for it (C140_lines_refuted).
* Types come from the first element of a list, and an empty object or list and null have no type: the schema that is printed is not
  accepted (C141_unread_refuted) and values get lost (C140_lost_refuted).
* Texts such as `2021-02` are dates for the time parser (C142_word_refuted).

Broker
* A list with a negative size makes `reserve` throw, and nobody catches the exception (C143_negative_size_refuted); a time that is NaN
  or infinite is converted to an integer, which is undefined (C143_time_refuted); an IPv4 subnet with a length above 32 becomes ::/0
  (C143_subnet_refuted).
* `convert` has no case for `func` and `file`, which `extract_value` has, so such logs are refused (C144_func_refuted), and what is
  behind their announcement in the same read is lost (C145_error_refuted).  It names the elements of a list `set` if the type of the
  *elements* is a table, which is an error anyway, so sets are never named (C144_set_refuted).
* `max_events` counts messages and not events (C145_events_refuted).  A row is not checked against the number of columns
  (C145_columns_refuted).

Chunk
* An empty chunk is received as null (C147_empty_refuted), and so is a chunk whose bytes are missing, without an error
  (C147_truncated_refuted).
* `mmap` of an empty file is an error, while reading it is not (C148_empty_refuted).
* `++stats.bytes += size` adds one byte too many for every successful request (C149_bytes_refuted).

TestGen
* A distribution of a subnet, list, map, pattern, enumeration or alias is never sampled and shifts those of the columns behind it
  (C151_subnet_refuted, C151_list_refuted). The addresses of generated subnets are all `::`, because `(*this)(addr_type, addr)`
  selects the overload that does nothing.
* `num_events_` is not set to 0 at the end, so a further call makes the last events again (C150_again_refuted).
* The bounds of a distribution are not checked (C152_bounds_refuted), and the counts of the built-in schema are drawn from a
  distribution of Pareto with the shape 0, whose samples are infinite (C152_builtin_refuted).

Options
* Sizes are computed modulo 2^64: a budget of `16EiB` is 0 and disables the disk monitor without a word (C153_overflow_refuted,
  C154_refuted). A space is allowed before a unit but not before a lone `B`; `10KB` is refused (only `k` is known).
* The size of a step of another type than a number is ignored, and a scan interval of zero or less is accepted (C154_refuted).
* `explorer_validate_args` looks at `by` of any type but `spawn_explorer` only at texts, so `by: 1` explores without any
  constraint (C155_refuted).
* `vast import -n 0` fails an assertion in `reader::read` (C156_zero_refuted); in a build without assertions the reader is asked
  for no events. `--listen=host:port` without `/udp` is refused as TCP (C156_protocol_refuted).

ArrowWriter
* The last stream is never closed (C157_end_refuted); a slice without columns dereferences a null pointer (C157_empty_refuted),
  although `writer::layout` has a case for it.

VectorMap
* Records and maps with the same contents are unequal if their keys were inserted in another order (C160_equal_refuted). Records of
  unnamed fields contain the empty key several times; erasing it erases one and leaves moved-from entries (C160_unnamed_refuted).

Output
* A short write sets the stream's error state and everything after it is lost; nobody looks at the result of `flush`, and the number of
  processed events is that of the events handed to the writer (C161_reported_refuted, C161_interrupted_refuted).
* The program that measures the database: empty output is undefined behaviour (`back()` of an empty string), its exit status is ignored
  and the output of `du -s` with the path is refused (C162_command_refuted).

Signals
* The handler sets the common flag before that of its signal. If the monitor looks in between, the signal is lost (C163_lost_refuted);
  the comment in the code knows about the race.

Project
* A typed view does not check the types of lists and maps: iterating over a column of another type throws out of a `noexcept` function
  (C165_container_refuted). `size()` of an invalid view is the number of rows (C165_size_refuted).

Select
* Layouts whose type of event contains a dot are skipped (C168_dotted_refuted); a name ending in a dot replaces the one without it
  (C168_trailing_refuted); a new schema does not remove layouts (C168_stale_refuted).

Dir
* An unreadable directory below the top throws out of a function that reports errors by value (C170_unreadable_refuted). Directories
  named like schemas are taken for schemas (C170_directory_refuted).

Uri
* Hosts and fragments are escaped by the printer and not unescaped by the parser; segments of paths are unescaped by the parser and not
  escaped by the printer. Ports above 65535 wrap (C171_port_refuted).
* The parser takes `&` and `#` for parts of a key, so that `?a&b=c` has the one parameter `a&b` (C171_key_refuted).

SynopsisStore, attributes
* The mark `skip` of the first column of strings decides for all columns of the same type in a partition (C173_string_refuted).
* The number of values in `bloomfilter(n,p)` wraps at 2^64, and a text that cannot be read is ignored without an error (C172_wrap_refuted).
* An entry that cannot be read truncates the separate file of synopses (C124_extract_refuted).

Http
* A response without headers is written with one line end too many, which becomes part of the body (C175_headers_refuted).
* Requests with an empty header value, with a parameter without a value, or with line ends in the body are rejected (C174_rejected_refuted).

Arena
* Rounding up a size and multiplying it by that of an element wrap around: a request of 2^64 - 1 bytes, or of 2^61 elements of eight bytes, returns memory of the arena without reserving any (C176_wrap_refuted, C176_elements_refuted). A vector does not ask for so much.

HashAppend
* Equal unordered sets are hashed differently if their elements come in different orders (C178_unordered_refuted).
* Values of different types may be hashed alike (C178_types_refuted); `view.hpp` has a comment about it.

ZeekFiles
* Layouts that share a name share a file, which has the header of the first only (C179_layouts_refuted).
* A log file that cannot be opened is not noticed when writing (C179_open_refuted).
* The beginning of a row that failed stays in the buffer and is put in front of the next row (C179_glued_refuted); the sink stops after an error.

Combinator
* A guard that rejects has consumed the text that it rejects: a loop, an option or a difference about it goes on behind this text (C180_guard_refuted).
* `skip(n)` fails if exactly `n` characters are left (C180_skip_refuted).
* A loop about a parser that succeeds without consuming anything does not end (C181_forever_refuted).

Combinator/Text
* A choice or a text behind something that is kept replaces it: `alpha >> (digit | upper)` stores one character of two (C182_overwritten_refuted).
* An option that fails half way leaves the first half in the string (C182_residue_refuted).
* `*(alpha | ignore(','_p))` stores an uninitialised character for every comma (C182_garbage_refuted).

Grammar
* The grammar of types is recursive on the left: `type_expr_parser` begins with an operand, and an operand that is neither a record nor a name is again `type_expr_parser`. Parsing the empty text, or `>`, as a type does not end (C184_type_refuted).

Printer
* An alternative or an option that fails after it has written leaves its text in the output, in front of what comes next (C185_residue_refuted).
* `&p` and `!p` write the text of `p` (C185_lookahead_refuted).

Commands
* `vast export` leaves its exporter in the node if the node does not answer with its components (C186_export_refuted).
* `vast import` succeeds although its source died of an error, for instance since the port is in use (C187_import_refuted).
* A blocking import that waits for the index cannot be interrupted (C188_interrupt_refuted).

Digest
* With `vast.max-partition-size: 1`, the digests of hash indexes would have 0 bytes, so that there is no index, and the indexers of such fields terminate with an error (C189_one_refuted).

Notify
* For an abstract socket, as in `NOTIFY_SOCKET=@/org/x`, the `@` is sent as it is (posix.cpp:254), so the message goes to a path that starts with `@`, and the service manager never hears that the node is ready (C191_abstract_refuted).
* The socket is never closed (C191_socket_refuted).

Logging
* The verbosities `debug` and `trace` are the same level of spdlog, so `debug` shows the messages for tracing, too, if VAST is built with them (logger.cpp:104-109, C193_trace_refuted).
* The directory for the log of a server is made with `create_directory` (logger.cpp:194), which fails if its parent does not exist, while the node makes all parents. This is not modelled.
