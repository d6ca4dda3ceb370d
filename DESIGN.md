# Formal model of zzztttkkk/httpd in Lean 4 - design

## Layout

* `lean/Verif/Base/`  - byte strings, ASCII and UTF-8, Rust integer parsing/printing, string trimming.
* `lean/Verif/Model/` - the model, one file per source file (or group). Every definition cites the lines of `/repo` it models.
* `lean/Verif/Spec/`  - small specifications used in theorem statements; they do not import the model's helpers.
* `lean/Verif/Lemmas/`- proofs of auxiliary facts.
* `lean/Verif/Props/` - the property theorems, one file per group, named after the property id (`C07_...`), with
  non-vacuity `example`s beside each.

Naming: `Cnn_xxx` proves the property (or a named facet of it); `Cnn_xxx_partial` proves part of it, with the missing part
named in its comment; `Cnn_xxx_violated` proves the *negation* of the property for the code as written (the model and the
code agree and the property is false of both).

## What is modelled, and how the model represents it

| code | model |
|---|---|
| byte strings, `String`s holding HTTP text | `List UInt8` |
| configuration strings | lists of code points (`Str := List Nat`); `char::is_numeric` and `to_lowercase` are parameters constrained by `LawfulUnicode` |
| `usize`/`u64` | `Nat` with explicit 2^64 bounds where overflow matters (profile debug = panic, release = wrap) |
| `&mut self` methods | functions returning the new value |
| panics, undefined behaviour | explicit outcomes |
| loops that may not end | fuel; `none` = still running after that many iterations. Non-termination = `none` for every fuel |
| `tokio::io::BufReader` over a socket | the bytes buffered, the list of non-empty segments still to arrive, and how the stream ends (close / error / the peer stays silent with the connection open, then reads do not return) |
| `Take`, `read_until`, `read_line`, `read` | re-implemented over that reader, segment by segment |
| `BufWriter` + socket | `Model/Writer`: the buffer, and for every call of the socket's write or flush what it does (takes up to n bytes, fails, is never ready). `Model/Serve`: the outcome of a whole response (written, or stopped after k bytes); C112 proves that the second is what the first does |
| `HashMap` | association list with distinct keys; iteration order is an arbitrary permutation given as a parameter |
| codecs (brotli, flate2) | parameters with the contract stated in each theorem |
| the crates `sha1` and `base64` | parameters in C42 and C43; `Model/Handshake` writes them out from their documentation, and C163 proves them against FIPS 180-4 and RFC 4648 |
| `std::time::Duration` | a number of nanoseconds |
| chrono local time zone | a parameter: the offset at every UTC time and the answer of `from_local_datetime`; `LawfulZone` ties the two together. Formatting is `Model/TimeFormat`: the calendar and the specifiers that the code itself uses; all other specifiers of `strftime` are a parameter (what they are and what they give). Elsewhere the text of a time is an input |
| file system (log files) | names to inodes, inodes to contents, plus an oracle for the result of each blocking write |
| file system (configuration, TLS files) | outcome parameters (exists, readable, what TOML makes of the text) |
| `tokio::fs::File`, `tokio::io::BufWriter` | re-implemented as documented: one write in flight per file, at most 2 MiB each, whose result the next operation sees |
| threads | transition systems; theorems quantify over all runs |

Module by module: `Model/MultiMap` is src/internal/multi_map.rs, `Model/Reader` the tokio reader, `Model/Message` src/message.rs
(and src/internal/header.rs), `Model/Memory` the readers of src/message.rs on vectors with capacity, length and possibly uninitialised cells, with the contracts of the unsafe calls, `Model/ConfigFile` the derived and
hand-written `Deserialize` of src/config, `Model/Serve` src/serve.rs, `Model/Services` src/reqr.rs, src/respw.rs, src/services/*, src/ws_impl.rs,
`Model/Compression` src/compression.rs, `Model/Main` src/main.rs and src/config/tls.rs, `Model/Shutdown` the same accept loops with the signal and the end of the runtime, `Model/Process` the end of `main` in per-core mode, `Model/PerCoreLog` the same together with the logger, `Model/Exit` the command line, the join loop and the exit status, `Model/WriteAll` `write_all` on a message body, `Model/Printing` the same as `Model/Exit` with what is said on standard output, `Model/Whole` all of these put together as one program, with the choice between the two modes, `Model/Closing` one connection with the kernels at both ends, for what a reset takes away, `Model/Binding` how the services get their addresses, `Model/HeaderCost` how many comparisons the multi-map makes, `Model/Writer` the write side of a connection (tokio's `BufWriter`, `write_all`, `flush`, and `write_to` over them), `Model/Config` src/config/* and src/utils/paths.rs, `Model/Logging` the records,
renderers and consumer of src/logging/* with `Config::logging`, `Model/ConnLog` the records that src/serve.rs and hello-world write, `Model/System` one service of src/main.rs from its configuration to the bytes on its connections, `Model/Dispatcher` src/logging/dispatcher.rs, `Model/Appender`
src/logging/file_appender.rs and rotation_file_appender.rs, `Model/Console` src/logging/console_appender.rs down to standard output (`tokio::io::Stdout`, std's `LineWriter`), `Model/Clock` and `Model/TimeFormat` src/utils/luxon.rs, `Model/Stamps` when a record gets its time, `Model/Pieces` the body readers of src/message.rs by the pieces they hand on, `Model/LoopLog` the records of the accept loops, `Model/Tasks` all connections of the process at once, taking turns, `Model/Flow` the same with clients that take their answers when they like, `Model/Crowd` and, with TLS, `Model/TlsCrowd` the same together with the queue at the listener and the limit on open files, `Model/Listeners` the queues of several services that share this limit, `Model/LogDeath` multi-thread mode together with the logger, `Model/LogChain` the consumer thread at work on all log files of a configuration, `Model/LogRun` the threads of the logger together with that work, `Model/LogErrors` the same with what the logger says about its own failures on standard error, `Model/ConsoleChain` the consumer thread at work on all consoles of a configuration, `Model/Accepting` the accept loop without TLS with a limit on open files, `Model/AcceptLog` that loop together with the logger, `Model/TlsAccepting` the accept loop with TLS, a limit on open files and time, `Model/Handshake` src/ws_impl.rs with the hash and the base64 encoder, `Model/Local` the calendar fields of src/utils/luxon.rs, `Model/Refusal` what is on standard error when the process refuses to start (src/utils/anyhow.rs), `Model/LiveLog` all connections together with the logger, `Model/JoinLoop` the join loop of multi-thread mode step by step with its records, `Model/LostConns` the connections that end because the log thread has died, `Model/CoreReports` the records about services that end in per-core mode, `Model/LastWords` the run of the logger inside a run of the process, `Model/CoreVoices` and `Model/Chorus` what the process says in per-core and in multi-thread mode, `Model/Turns` the turns of tasks on the worker threads, `Model/RuntimeEnd` the drop of the runtime after the join loop.

Specifications worth knowing: `Spec/Codec` says what a codec must satisfy (the decoder inverts the encoder) and nothing about the formats;
`Spec/Render` has the JSON grammar of RFC 8259; `Spec/Rotation` has zones and the histories of a rotating appender; `Spec/Head`,
`Spec/Loose`, `Spec/Request`, `Spec/Response`, `Spec/Chunked` have the wire formats as functions from values to bytes; `Spec/Grammar` has
the exact language of heads, the exact language of unfinished heads, and `Talk`, whole connections as a relation between the bytes that
come, the answers, and the end. `Spec/Rfc` has the request heads of RFC 9112, with their field values, as a function from heads to bytes.
`Spec/Calendar` has the Gregorian calendar as the day after a day. `Spec/Run` has the requests that stand in a byte string one after the other, and the exact language of chunked bodies.

Assumptions that are hypotheses of the model rather than of a theorem: `Env.cap_pos` (the buffer that a body is read into has room for at
least one byte - the last line of the head, at least two bytes, was read into it just before); a service does not look at `ctx.buf`;
logging after the shutdown guard was dropped (a use after free in dispatcher.rs:46-50) has no effect in `Model/Dispatcher`; that it can happen
is C128.

Only `Model/Turns` knows that tasks share worker threads; everywhere else (C99, C206, C208, C211 and the like) a task that has something to do is taken to get its turn, which is so as long as
fewer connections over TLS were left in the middle of a body than there are workers (C218); and the end of the runtime waits for nothing, which is so if there is no such connection (C219).

Not modelled: memory safety of the `unsafe` blocks beyond `Model/Memory`, C140 and the index computations (an out-of-range `get_unchecked` is an explicit
`ub` outcome), task cancellation (except by the end of the runtime, `Model/Shutdown`), real time except as an input, the TLS handshake and cryptography (records are in `Model/TlsWriter` and `Model/TlsReader`, with encryption as a parameter), TOML syntax (the model
starts from TOML values; what `serde` and `toml` make of the attributes is `Model/ConfigFile`, from their documentation), allocation failure (a buffer size above `isize::MAX` is a panic, in `Model/Logging` and `Model/System`; every smaller allocation succeeds), `http2::serve` (a `todo!`),
`ws::serve` (empty), `ForwardService`/`UpstreamService` (empty stubs, `todo!` in `run`), the match language (`matchs.rs`
deserialises everything to an empty match).

## Trusted base

* Lean 4.33.0's kernel. Mathlib is not used. No axioms of our own; the property theorems depend at most on `propext`, `Classical.choice`, `Quot.sound`
  (printed by `lean/Verif/Axioms.lean`, generated by `tools/manifest.py`, at build time).
* The reading of the Rust code that the model expresses: the code is not run here.
* The behaviour of the dependencies as described in the table above (tokio readers/writers, std collections, bytebuffer as an
  append-only byte vector, `str::parse`, `char` classification on ASCII).
* Where a dependency does more than that, its part is modelled from its documentation and source as remembered, and the module says so: tokio's runtime and time (`Turns`, `Shutdown`, `RuntimeEnd`), tokio-rustls and rustls (`TlsWriter`, `TlsReader`), clap (`CommandLine`), toml and serde (`ConfigFile`), flate2 and brotli (`Compression`), chrono (`TimeFormat`), the kernel's listen queue and TCP (`Accepting`, `Flow`, `Closing`). None of these crates is in the sandbox, so none of this was compared with them.

## Plan per property

* C01 model reader with segments, readers, serve loop; prove every reader primitive is a function of the flattened bytes, lift through the loop
* C02 spec `Head.encode`; induction over header list
* C03 invariant of the head reader, over all inputs
* C04 same invariant, plus equality under case folding of names
* C05 from C02 + multi-map refinement (C36)
* C06 negation: for every limit >= 1 and count, a request is accepted; exactly what the limit does on any bytes (`Props/CountLimit`) from the grammar of C129
* C07 invariant of the head reader
* C08 negation with a family of inputs; partial: what is guaranteed
* C09 fuel bound
* C10 negation (two left-over bytes); partial: every other cut is refused
* C11 negation; exact characterisation of what ends the head
* C12 negation (skipped line; empty name merged into the next header)
* C13 negation (empty value refused; LF loses the last byte); partial for values with CRLF
* C14 induction over read iterations
* C15 negation: runs for every fuel; partial: never delivered; error closes
* C16 equivalence with a digit-string spec
* C17 negation; exact: first value wins
* C18 negation: any body size accepted
* C19 over all inputs of `read_body_normal`
* C20 negation (second chunk dropped; hexadecimal refused); partial: single decimal chunk
* C21 negation with a concrete smuggling request
* C22 invariant of the serve loop
* C23 induction over the request list using C02, C14
* C24 negation: bodies accumulate; partial: heads isolated, and full isolation when earlier bodies are empty
* C25 C26 case analysis of the loop, over all inputs
* C27 negation after delete; partial without delete
* C28 encode/decode round trip using C02
* C29 negation; partial for values without CR/LF
* C30 negation; exact response characterised
* C31 negation; exact characterisation
* C32 negation
* C33 negation (minor = major); exact characterisation
* C34 negation
* C35 transition system of run/accept loops
* C36 refinement to `Key -> Option (List Val)`
* C37 negation; partial: histories without set/append after a list-mode delete
* C38 loop = filter
* C39 simulation between cleared and new
* C40 permutation statement
* C41 invariant over all histories
* C42 C43 case analysis; negation for C43
* C44 codec as a lawful state machine
* C45 negation with a short-writing codec; partial
* C46 negation; partial for start line and headers
* C47 invariant
* C48 negation for g; partial for b/k/m; exact
* C49 proved
* C50 negation (panic on leading unit; release wrap-around); exact outcome characterised
* C51 invariant of the splitting loop
* C52 C53 C55 case analysis over all values; all three also for whole configurations (`Props.InheritExact`)
* C54 negation for max_headers_count/max_body_size; partial for the others; both also for whole configurations
* C56 induction over services in any order
* C57 negation (trim); partial
* C58 induction over glob entries
* C59 over a model of `Path::file_name`/`extension`
* C60 induction over the appender list
* C61 C62 over all configurations; negation for several renderers (out-of-range index)
* C63 table for a filter; induction over the loop that makes the appenders of a section (`Props.FilterExact`)
* C64 equivalence
* C65 negation: set-up hangs (`initLogging`, `unspawned_waits`)
* C66 C67 C68 transition system; negation for C68
* C69 invariant of the buffered writer
* C70 negation; exact: what is lost is the buffered part
* C71 fixed-offset zones proved; negation for zones with a day longer than 24 h
* C72 negation; partial for clean records without key/values
* C73 induction over pieces
* C74 fold = spec
* C75 transition system; negation (race, livelock); safety part proved
* C76 transition system
* C77 byte counting along the loop
* C78 C79 C80 exact transcripts, by induction over the request list (C78, C79) or the history (C80)
* C81 induction over the events of the accept loop
* C82 C83 grammar of sizes and durations; equivalence with the parser, both build profiles
* C84 C86 C87 case analysis and induction over the services
* C85 negation (name `..`); partial for plain names
* C88 C89 induction over the appenders; negation for C89 (panics while an appender is made)
* C90 C91 negation; partial
* C92 C93 transition system: a bound on the consumer's actions; negation for C93
* C94 C69 along the runs of the transition system
* C95 C96 C97 names and times of rotation; negation for C97
* C98 extension lemma for every reader primitive, lifted through the loop
* C99 C98 with C02 and C15
* C100 negation: the server waits at every position
* C101 induction over the visited names
* C102 C103 C104 C105 C106 negation with families of requests; what is guaranteed for every input
* C107 C108 C109 transition system of the accept loops, the signal and the connections; negations (lost signal, dropped connections, per-core mode); executions without end in which Ctrl-C is pressed again and again (a rank of the loop that only a connection sets back)
* C110 C111 C112 C114 invariant of every operation of the buffered writer; simulation of the loop without it; C113 negation (no write timeout); `Props/WriterMoments`: a connection whose stream stalls at a call is the same connection up to that call, so C114 holds at every moment
* C115 induction over the writes; C116 induction over the calls, then C29; negation (texts are glued)
* C117 C118 C119 transition system of the console appenders and the blocking threads; negations (torn record, swapped lines)
* C120 the records of the loop = a function of what was delivered and how it ended; C121 C122 C123 (and more of C90) follow, with negations
* C124 composition of C78, C81, C86, C91, C112 for the default configuration; C125 non-interference: the loop is the same function for
  all values of the unused settings; C126 C127 composition of C35, C81, C84, C87, with negations
* C128 transition system of `main` and the threads of per-core mode up to the end of the process; invariant, and negations
* C129 the grammar of `Spec/Grammar`, both directions by induction over the lines; waiting; no ambiguity
* C130 induction over the loop of `serve` against `Talk`; `Talk` is a function by induction over its derivations
* C131 sum of the transcript of C78 (hello-world); C130 and C77 (file system)
* C132 inversion of the grammar of C129: the first piece of every continuation. Which unfinished heads can still become heads (`Spec/Hopeful`, `Props/Hopeful`): by induction over the pieces that are complete, then case by case for the one that is not, both ways
* C133 the heads of `Spec/Rfc` against the grammar of C129: `Section` and `SectionOpen` by induction over the field lines
* C134 instance of C132, then the loop of `serve`
* C135 induction over the loop of `serve` for an arbitrary service, against `Reqs` of `Spec/Run`; `Reqs` is deterministic
* C136 `ChunkText` and `ChunkOpen` of `Spec/Run` against the reader, case by case; C20 by counting bytes
* C137-C139 simulation between `Model/Memory` and `Model/Message`; the invariants are `RVec.Holds` (initialised up to the length) and `RVec.Fits`
* C140 from C61 and C88
* C141 per type of `Model/ConfigFile`, `de v = value a ↔ Says v a`, composed over sections
* C142-C145 from C141 and C86; the entries that a section does not know are filtered out by `pick`. The kinds of all settings at all depths (`Spec/Schema`, `Props/Schema`): a table of the whole file, section by section from C141
* C146 on the specification side of C141: exchanging two entries preserves each `Says`
* C147 a predicate on the strings of the value, preserved by taking settings, items and entries; entries of a table are read in the order of the file, and `C147_first_partial`, `C147_section_partial` say that the first mistake counts (`Props/ConfigFirst`); `Spec/ConfigPanic` describes section by section the values at which the program panics, and `C147_file_partial`, `C147_files_partial` show that it is exactly these (`Props/ConfigPanic`)
* C148 composition of C141, C86, the fix-up (`effectiveLimit`), C58, C112 and C130
* C149 the closed form of the date proved equal to counting days one by one; the layout read symbolically
* C150 the order of texts field by field; negation for every time zone whose clock is set back
* C151 negation by a run with any gap; partial: invariant of the transition system, per thread
* C152 as C150, for names
* C153 negation: start-up does not look at the layout, and who gets a record does not depend on its time
* C154 negation: start-up and texts are the same whatever the services say
* C155 negation with the scanner of C72; exactly: by C205, going through the layout; partial: the default layout
* C156 exact condition for the hang, from the set-up of logging; C157 C158 over all services and orders of ending, with negations; C159 per profile
* C160 by cases on the write and the rotation; C161 C162 by induction over the calls, with the total (file, write in flight, buffer) as a sublist of what was written, for any results of the system's writes
* C163 by a refinement: the block buffer of the hasher holds the rest of the message, its state is the hash of the whole blocks; uniqueness of the base64 text by induction over its groups; C164 from C116 and the reading of one request
* C165 and the exact form of C147 by inductions over the patterns and the files they find, up to the first whose reading panics; C148 and C143 use it to speak of included services.
* C166 by an invariant of the connection loop: what is held of the headers grows by no more than the line read, the body by no more than its bytes; the violations from C06, and from an induction over equal requests
* C167, C168 from the transcripts C78 and C79; C169 from the reading of a head and an unfinished body, for every service
* C170 from C129, C136 and C14
* C171 from C61, C62, C66, C67, C120 and a disk with all files of a configuration (`Model/LogChain`), by induction over the calls of the consumer thread
* C172 by an invariant (`Parted`) over the calls of a rotating appender: the files put away so far with what each has lost, and the file in use with its buffer
* C173 by an invariant (`Among`) over the calls of the consumer thread: the files of one appender as for C172, and that no other appender has a hand in them; then as C171
* C174 by induction over the requests of a connection (`serveActs`: records and answers in one sequence, a refinement of C120's and of `serve`), and from C93 over the runs of the logging threads
* C175 from C61, C66 and C120: one record that cannot be delivered is enough, and the first record of a request is one
* C176 by an invariant over the product of C76's transition system and that of C66/C93, and a measure of the steps left; the record the join loop logs is not known in advance, so programs are extended on the way (`withRecord_run`)
* C177 by invariants over runs in which the panics of the logger's thread have their causes (`LoggerRun`): where the time of the next rotation comes from, and that a record whose work panics stays in hand until it does
* C178 by runs of the dispatcher in which only the connection's thread steps (all its records wait, its client has all answers) and, for what holds, by the flow invariant of C66.
* C179 by counting: the bodies that pile up (C24, C166) are logged again with every request; the bound from above by the bytes held (C166), the length of names and the story of C120.
* C180 by invariants over runs of the accept loop under a limit on descriptors; that a task does not end is C100 and C15 for the whole connection (`serveLoopW_refines`); what holds by a measure on the queue and the tasks.
* C181 by runs of failing accepts, and the dispatcher of C178 for their records.
* C182, C183 from the delivery of well-formed requests (C23, C17) and the grammar of numerals; C184, C185 from the exact grammars of the two body
  readers (C14, C136, C170), with the RFC's notion of a chunked message in Spec/Framing.
* C186 by unique readability: each field of a line ends at a byte that does not occur in it; the negation by writing down the body that forges a line (C120, C123).
* C187 as an invariant of the product of the accept loop and the logger: the loop ends only by a panic, which needs a dead consumer; the negation by running C180's clients next to a run of the logger with a panic.
* C188 by a count over one time limit: whoever is in the handshake at its end was accepted within it, so as many were accepted as there are descriptors left for handshakes; then induction on the number of time limits. That time can pass is shown with a measure. `C180_tls_violated` is C180's negation for TLS.
* C189 from C61, C62, C66, C67, C120 and the invariant of C117, extended by what has been written when a flush returns; the calls of the consumer thread are split by appender (`Model/ConsoleChain`).
* C190 product of C128's transition system and that of C66/C93 with tasks on threads; the logger's part of a run is a run of the logger, so C66, C68 and C93 carry over; a measure for the end.
* C191 simulation between the two instances of the body readers (one relation, kept by the loop).
* C192 from C191, C136 and the codec laws of C44; the limit counts what arrives, and errors of the decoder are dropped.
* C193 from C141, C58, C88 and C60: the loop of `init` by induction over the entries of a section (what is taken so far = the levels seen so far); then C173.
* C194 by comparing `main` with and without failing `println!` (`Model/Printing`): a service runs as in `Model/System` if its line is out, not at all otherwise.
* C195 by the cases of `run`, with C35 for TLS and induction over the events for the end of the accept loop.
* C196 by induction on what is left to write, with the contract of `std::io::Write` as the only assumption on the codec besides that its decoder inverts its encoder (`Spec/Streaming`); C44's codecs are a special case.
* C197 composes C130, C157, C165 and C194: a lemma says what each service that a file asks for (also the built-in one) is after loading, and the rest is reading off `Machine.main`; C198 by induction on the services. What `Builder::spawn` does with a NUL in a name is the documented behaviour of Rust's standard library.
* C199: the bad run by construction (send all, read until the server does not wait, close), with C98 for what the server has done; the good case by an invariant over the client's runs, with the lemma that no service is called for a strict prefix of a request.
* C200 by induction on the loop, two runs side by side (like C01, but with different orders of the tables).
* C201: a client that frames by Content-Length finds exactly the answers (`Framed`), for any prefix of the bytes; from C112, C130 and prefix stability of `splitHead`.
* C202 by invariants over runs of `Model/Binding` (addresses tried one by one, all services at once); the bad runs by construction.
* C203: the length of the list of names as an invariant of all histories; the bad cases by induction on their size. Look-ups in the hash table are not counted.
* C204: the invariant of C172 (what each file was given), with the writes in groups by the day in which each file was begun; the bad cases by running the model on a restart and on a record as long as the buffer.
* C205: a JSON text of a string is longer than the string unless there are no escapes, so an object with the members of the record is longer than the line; no ambiguity of texts needs to be excluded.
* C206: what a connection does for the bytes read so far is a beginning of what it does when more arrive (induction on the fuel of the loop, from C164's lemmas), and all of it unless it waits; a step of one connection touches only its own task, its own wire and the end of the queue (frame), which gives projection, commutation and the bound on turns.
* C207: induction on the events of the accept loop, side by side with C81.
* C208 joins C197's start (`Machine.start`) with the interleaved tasks of `Model/Tasks` (`Props/AllAtOnce`): every client of every configured service is sent what
  `Talk` gives for its own bytes, whatever the others do. `C206_grammar` is the same for any setup.
* C209: `luxon::local`, `endofday` and `endofhour` go through calendar fields (`Model/Local`); the calendar of the specification counts days. `C209_ends` shows that
  `endOf` of `Model/Clock`, which has no calendar, is what they compute.
* C210: `Model/Refusal` has the text with which `main` returns an error; the `{:?}` texts of errors of the standard library and of the crates are parameters (`ErrorTexts`), as is the way a character outside ASCII is written. `C210_says`: there is a text exactly if the start fails. `C210_reason`: the text is a true reason, told from the TOML value and the files found. `C210_all`: a process that starts its services has no such reason. Panics (C147) and the hang of C64 say something else or nothing and are not meant. Not modelled: the error of building the runtime (src/main.rs:255-268), which comes after the start.
* C211: `Model/LiveLog` is the product of `Model/Tasks` and `Model/Dispatcher`: a log call of a task is a call of the logger. `C211_never_waits`: a run of both is a run of the connections, and the logger blocks no step of a connection. `C211_records`: what is logged is a beginning of the story. `C211_flush_returns`: a flush needs only the consumer. `C211_files` (via C173) and `C211_command_line` (via C193): what is in the files. Log calls that panic because the consumer thread is dead are C174; what the accept loops log is C207.
* C212: `Model/JoinLoop` has the steps of the join loop with their records; `join_multi` maps its runs to those of `Model/Main` (C76). `C212_so_far` is an invariant of all runs. `C212_in_the_end` and `C212_every_order`: `mainExit` (`Model/Exit`), which is a function of the order of the tasks, describes exactly the runs that cannot be continued.
* C213: `Model/LostConns` adds to `Model/LiveLog` (C211) the step that it leaves out: the panic of a log call in a connection task when the log thread is dead. Without these steps a run is one of `Model/LiveLog`. A connection that is lost stays at the record that it could not log (`mortal_inv`), which gives `C213_cut_off`; `C213_others` is about one step, `C213_quiet` a run of the task's own turns; `C213_info` uses C174. The accept loop's own record ("accept failed", debug builds) is not in this model: with a dead log it ends the task of the service (see C187).
* C214: `Model/CoreReports` adds to `Model/Process` what the thread of a service logs about its end. An invariant (`ReportInv`) relates the log to the threads; the violations are executions for every number of services. The text that Rust prints to standard error for a panic is not meant by "the log".
* C215 what became of the services, from the join loop down to the disk: the run of the logger inside a run of the process (`Model/LastWords`), the appenders of the
  configuration and the disk as in C173. Holds if the logger's thread gets to its last flush; the negation has the process end with status 0 and the file unchanged.
* C216 (Model/CoreVoices, Spec/CoreVoices, Props/CoreVoices): the threads of `Model/Process` with the lines of `Model/Printing`: what is on standard output and standard error, and the exit status, in every interleaving of per-core mode. Invariants by induction over the run; the race in which a service is announced after `httpd: shutdown` is the negation of the rest.
* C217 (Props/CoreFiles): `CoresRun` of Model/PerCoreLog joined to the appenders and the disk, as C215 does for the multi-thread mode; the parts common to both are `done_files` and `unflushed_files` in Props/LastWords.
* C218 `Model/Turns`: the loop for a body with the budget of a turn (`bodyTurn`), measure: bytes in the buffer plus budget times what a read can bring; refinement to `constLoop`; the tasks on the worker threads as an LTS (`PoolStep`), invariant: who has a worker for ever is a connection over TLS whose client has left; construction of the frozen state by induction over the clients
* C219 `Model/RuntimeEnd`: the LTS of C218 with the main thread in the join loop, dropping the runtime, and after that. Once the runtime is dropped no turn begins; a spinning task stays one, so the drop does not return. `Model/Shutdown`, `Model/Exit`, `Model/JoinLoop` and `Model/LogDeath` leave this wait out: there the tasks that are left are cancelled at once.
* C220 `Spec/Forever` (executions without end, weak fairness), over the LTS of `Model/Tasks`: while the acts for what had arrived are not all done, a turn of the task is possible (`can_go_on`) and the number of its turns is bounded, although the client may go on sending: no segment beyond those that had arrived is read before. `C220_possible`: every run can be continued fairly. That tokio's scheduler is fair in this sense to tasks that are woken is part of the trusted base, as long as no worker is lost (C218).
* C221 the same for the logger, over `Model/Dispatcher` and `Model/LiveLog`. The records are first in, first out (`Fifo`: messages sent = dealt with ++ in hand ++ waiting), and the number of actions of the consumer is at most three times the number of messages dealt with, plus three; so, when it is not left out, the messages sent by a given moment are all dealt with at some later one. The proof is for a logger that may be called at any time (`OpenStep`), of which both the logger with given calls and the logger of a server (`liveLogger`) are instances. That the operating system is fair to the consumer thread is assumed; that the consumer does not panic too (when it does: C174, C93).
* C125, the converse (`Props/ToldApart`): of the settings that do have an effect three are told apart by requests that one service answers and the other does not. A target (a header line) as long as the smaller limit is cut there, what is left begins with LF after a version text of 126 bytes (after the cut line), and no header section begins with LF.
* C125 for files (`Props/FileSettings`): the text of the protocol (`Spec.Talk`) allows one list of answers and one end for each byte string, and does not depend on the limit for the number of header lines. So `C148_file_to_wire`, read for two files, says that only three entries of a file matter to a client that takes what it is sent.
* C226 and C216 from the command line (`Props/ChorusFile`): the lines on standard output are related to the file itself (`Spec.FileIntroduces`), not to the configuration that was read from it.
* C218 and C219 said by what the clients send (`Props/RuntimeCut`): C242 turns 'the connection spins', which is about the model, into 'the client has closed inside the body of a request', which is about the bytes. Tasks are there once, so as many workers are kept as there are such clients.
* C244 (`Props/Versions`): every byte string is a list of complete requests and a rest (`Spec.AllRequests`), and by `Spec.Talk` the answers are a function of the versions of these requests. That says at once for all requests what C31, C106, C167, C168 and C169 show for single headers and methods: these are not looked at.
* C103, C104 exactly (`Props/NamesExact`): the names, methods, targets and versions that a service can see are characterised from both sides, with the grammar of C129: every head that is read has such words, and for all such words there is a head.
* C07 for names with their values (`C07_pairs_partial` in `Props/NamesExact`): if no line of the head has an empty name, what is delivered under a name was sent under it, and both together are within the limit on lines.
* C24 exactly (`Props/IsolationExact`): a service sees the body of a request alone if and only if no request before it on the connection had a body.
* C37 with a name used again (`Props/DeleteExact`): after any history without deletions, deleting a name and appending to it is always right, deleting it and setting it again never is while the table is a list; appending to another name is right exactly if that name does not come later in the list.
* C222 down to the file: `shownBy` is what the file holds when the write that tokio's blocking thread is doing has been done. It is behind by the content of the `BufWriter`, at most `bufferSize` (`perform_ok`, `shownBy_lag`); with C221 this bounds for every record what has to be logged after it; `C222_command_line_partial` says it for the files and services of the configuration that the command line names. The negation is over `Model/LiveLog`: any run whose records are together shorter than the buffer, after which all tasks have done what they can, goes on for ever, fair to all, with the file untouched.
* C223 joins `Model/Accepting` and `Model/Tasks` in `Model/Crowd`: a connection has its place among the tasks when the kernel has completed it, but its task takes turns only while it is in service, and the descriptor is free when everything is done and `serve` has returned. A task that is given what makes `serve` return is over at some moment (`over_in_the_end`, as `acts_done` of C220), so a full house does not stay full (`next_accepted`), and the queue moves on by induction. `Props/Fairness` shows once and for all that fair executions exist after every run of every transition system, for countably many classes of actions; this gives `C220_possible_all`, `C223_possible`, and the fair execution of `C223_bound` in which as many silent clients as there are descriptors keep out one more.
* C224 is C223 with TLS: `Model/TlsCrowd` joins `Model/TlsAccepting` and `Model/Tasks`. That time passes without bound takes the place of the fairness of the accept loop: in the model time stands still while an `accept` can succeed. Without an `accept` all handshakes are over after one time limit (`tls_inv`), so the descriptors in use are those of connections past the handshake, one of them comes back, and then time could not go on. That the condition on time can be met after any run is `time_passes`: when nobody connects any more, what is to be done at once is finite. `C224_bound` fills the house with handshakes that take no time. `Props/FromFile` starts both claims from the command line (`C223_command_line`, `C224_command_line`); `TlsInForce` (`Spec/Whole`) says which certificate, key and time limit a service has.
* C225 is about several services that share the descriptors (`Model/Listeners`, `SharedStep`). Weak fairness of the accept loops (`Spec/Forever`, `Fair`) is not enough, `busy` is the execution that shows it, four moments per client for any limit; strong fairness (`StronglyFair`) is, and so is that only finitely many connect.
* C226 (Model/Chorus, Spec/Chorus, Props/Chorus): the join loop of `Model/JoinLoop` with the lines of `Model/Printing`, on standard output and standard error, in every interleaving of multi-thread mode. An invariant over the run; a bound on its length; and at its end a comparison with `mainPrinting`, whose order of the lines it leaves open.
* C227 (Model/Flow, Props/Flow): `Model/Tasks` with a limit on what the kernel keeps of an answer until the client takes it. An execution of it, leaving out how the answers travel, is one of `Model/Tasks`, so C206 gives what can be received; that a task cannot be left out for want of room if its client goes on taking (what is taken grows and is bounded, so it stays the same from some moment on, and then there is nothing to take and there is room) carries C220 over. Fair executions in which chosen clients take nothing any more exist.
* C228 (Model/LogErrors, Props/LogErrors): the calls of the appenders with the lines of `eprintln!` about failed calls and rotations, and an oracle for standard error. By induction over the calls: with a standard error that can be written nothing changes, and the first line that cannot be written ends the thread; C93 says what follows. `Model/Dispatcher` therefore has panics in a flush as well.
* C229 (Props/FlushOrder): an invariant over runs of the dispatcher: the answers given, the request in hand and the requests in the channel are,
  in this order, the requests made. From it also `C93_waits_violated`: the request in hand at a panic, and all behind it, are never answered.
* C230, C231, C232 (Model/Compression, Spec/Compression, Props/Compression): the interface of `Model/Message` made of the six writers of the crates,
  which stay parameters. What each writer is expected to do is said about the functions of the crates; that `into_inner` of Brotli's writers ends the
  stream is how the crate documents them. Sound writers make a codec as C196 wants it.

* C233, C234, C235: `Model/TlsWriter` puts the records of TLS between the `BufWriter` and TCP, from tokio-rustls and rustls; encryption is a parameter (self-delimiting records). A run is followed by what was made into records (`TlsLater`) and what left the buffer (`TlsMoves`); the client's view is an inductive definition over the bytes on the wire (`Opened`), shown to be unique.
* C236, C237, C238: `Model/TlsReader` is the read side: portions of TCP, records opened by rustls, plaintext cut by the buffer. Authenticity is a hypothesis on the opener (`Authentic`: a record opens only in the place for which the client made it), shown to be satisfiable for every encryption. What is read is a beginning of what was said (`process_some`, `reads_some`); an error instead of an end makes no difference to the requests delivered (`serveLoop_broken`), so C98 applies; C237 follows the records that are there in whole (`Opened`).
* C239: `Model/CommandLine` is clap's parser for the one positional argument of `Args`, from clap 4.5; the spec lists the five shapes of a command line that names a file and the two that ask for help.
* C240: the spec is a terminal (the sequences for 24-bit colours and the reset) and the line as it is to be shown; the model is the renderer of C73.
* C241: the terminal of C240 and the log of a connection (C120); the negation sends a body with complete colour sequences only, so it does not depend on what terminals do with broken ones.
* C242: the grammar of C129 and C135, with bytes that end inside a body; over TLS the workers of C218 and the reader of C236.
* C243: the chain of C208 (command line, file, limits) with the reader of C236 and the writer of C233 in place of TCP.

## Testing the theorems

`seeded/LOG.jsonl` has one line per wrong program tried: the definition edited, the edit, the claim it breaks, the theorems that failed
and what was tightened. Each edit was made in a scratch copy, everything downstream re-elaborated with errors turned into `sorry`, and
the property theorems that then depend on `sorry` (or are gone) counted as failed. Each line describes
the theorems as they were at the time of the attempt: some have been renamed since (`C89_starts` is now `C89_starts_partial`, two theorems
of C30 were replaced), and theorems added later are not among those counted. A theorem counts as failed when its
proof no longer goes through; that can also happen to a statement that is still true of the wrong program, so the list of failed theorems may be
longer than the list of statements that have become false. The claims that the edit is meant to break are named in `claim_broken`. Edits
that do not elaborate, or on which the run breaks off, are not wrong programs and are left out; twelve such lines had been logged as caught and were
replaced by edits that do elaborate (their ids end in `r`).
