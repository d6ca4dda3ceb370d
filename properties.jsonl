{"id": "C01", "title": "Segmentation independence of a connection", "statement": "What a connection does - which requests the service sees, which bytes are written back, how the connection ends - depends only on the bytes the client sends and on how the stream ends, never on how the transport cuts those bytes into reads.", "quantifier": "every byte sequence, every pair of segmentations of it into reads, every service, configuration and write-failure schedule", "why_tests_cant": "The segmentations of even a short request are exponentially many and are chosen by the kernel and the peer.", "anchors": "src/message.rs::Message::read_headers, src/message.rs::Message::_read_const_length_body, src/serve.rs::serve"}
{"id": "C02", "title": "A well-formed request head is delivered exactly", "statement": "Reading a well-formed request head (method, target, version, header lines, blank line, all within the configured limits) succeeds, yields exactly that method, target and version and exactly those headers, and consumes exactly the bytes of the head.", "quantifier": "every well-formed head with any number of headers, every suffix of following bytes, every segmentation", "why_tests_cant": "Unbounded set of heads; off-by-one errors in trimming appear only at particular lengths and limits.", "anchors": "src/message.rs::Message::read_headers"}
{"id": "C03", "title": "Only printable text gets out of the head parser", "statement": "Whenever reading a head succeeds, the method, target, version and every header name and value consist only of printable ASCII and spaces; in particular none contains CR, LF, NUL or a byte above 0x7e.", "quantifier": "every byte sequence, configuration and segmentation", "why_tests_cant": "A filter is only as good as its worst input; sampling cannot show that no byte sequence slips past.", "anchors": "src/message.rs::Message::read_headers, src/message.rs::ensure_ascii"}
{"id": "C04", "title": "Header names are normalised", "statement": "Every header name stored by the head parser is lower case, has no surrounding spaces and is at most 256 bytes; changing the letter case of the names in a request does not change what the parser stores.", "quantifier": "every byte sequence and every re-casing of header names", "why_tests_cant": "Quantifies over all re-casings of all requests.", "anchors": "src/message.rs::Message::read_headers, src/message.rs::MAX_HEADER_NAME_LENGTH"}
{"id": "C05", "title": "Repeated headers accumulate in arrival order", "statement": "After reading a well-formed head, looking up a name returns all values sent under that name, in the order sent, and looking up a name that was not sent returns nothing - for any number of headers, including past the point where the storage switches representation.", "quantifier": "every well-formed head with any number of headers and repetitions", "why_tests_cant": "The representation switch happens after 36 distinct names; interactions of repetition and switch are unbounded.", "anchors": "src/message.rs::Message::read_headers, src/internal/multi_map.rs::MultiMap::append, src/internal/multi_map.rs::MultiMap::tomap"}
{"id": "C06", "title": "The header-count limit is enforced", "statement": "A request carrying more header fields than max_headers_count is refused.", "quantifier": "every limit and every request with more header fields than the limit", "why_tests_cant": "A counter that is reset in the wrong place passes small tests; the claim ranges over all counts.", "anchors": "src/message.rs::Message::read_headers, src/config/http.rs::HttpConfig::max_headers_count"}
{"id": "C07", "title": "Delivered head elements are within the configured sizes", "statement": "Whenever reading a head succeeds the method is shorter than 128 bytes, the target shorter than max_url_size, the version shorter than 127 bytes, and every header name plus value is shorter than max_header_line_size.", "quantifier": "every byte sequence, configuration and segmentation", "why_tests_cant": "A bound over all inputs.", "anchors": "src/message.rs::Message::read_headers"}
{"id": "C08", "title": "Oversized head elements are refused, not re-split", "statement": "A method, target or header line longer than its limit makes the request fail; it is never cut into pieces that are then interpreted as the next part of the request.", "quantifier": "every over-long method, target or header line", "why_tests_cant": "The mis-parse needs a specific length relation between the input and the limit.", "anchors": "src/message.rs::Message::read_headers"}
{"id": "C09", "title": "Reading a head always finishes", "statement": "Reading a request head returns after finitely many steps on every stream that is closed or fails, and never waits there; on any stream the number of steps is at most the number of bytes available plus a constant.", "quantifier": "every byte sequence, stream end (close, error or silence), configuration and segmentation", "why_tests_cant": "Non-termination cannot be observed by a finite test.", "anchors": "src/message.rs::Message::read_headers"}
{"id": "C10", "title": "A truncated head is never delivered", "statement": "If the client closes the connection before the blank line that ends the head, the request is not delivered.", "quantifier": "every strict prefix of every well-formed head", "why_tests_cant": "Every cut position of every request would have to be tried.", "anchors": "src/message.rs::Message::read_headers"}
{"id": "C11", "title": "Only an empty line ends the head", "statement": "The head is ended by an empty CRLF line and by nothing else.", "quantifier": "every byte sequence", "why_tests_cant": "Ranges over all lines.", "anchors": "src/message.rs::Message::read_headers"}
{"id": "C12", "title": "Malformed header lines are refused", "statement": "A header line without a colon, or with an empty name, makes the request fail; it is neither skipped nor merged into another header.", "quantifier": "every header line without a colon or with an empty name, in every request", "why_tests_cant": "Interaction with the storage of previously read headers.", "anchors": "src/message.rs::Message::read_headers, src/internal/multi_map.rs::MultiMap::append"}
{"id": "C13", "title": "Header values are delivered unchanged", "statement": "A header whose value is empty is accepted with an empty value, and a header line ended by a bare LF is either refused or delivered with its full value.", "quantifier": "every header name and value", "why_tests_cant": "Corner of the trimming logic for all values.", "anchors": "src/message.rs::Message::read_headers"}
{"id": "C14", "title": "A Content-Length body is exactly the announced bytes", "statement": "When at least n bytes follow the head, reading a body announced as n bytes appends exactly the next n bytes to the body, in order, and leaves the stream positioned exactly after them, for any read-buffer capacity and any segmentation.", "quantifier": "every n, byte sequence with at least n bytes, buffer capacity and segmentation", "why_tests_cant": "All lengths relative to the buffer capacity and all segmentations.", "anchors": "src/message.rs::Message::_read_const_length_body, src/message.rs::read_const_length_body_impl"}
{"id": "C15", "title": "A client that closes early ends the connection", "statement": "If the client closes before sending the announced body, the connection is closed and the service never sees the request; if the stream fails with an error, the connection is closed.", "quantifier": "every announced length and every shorter available stream", "why_tests_cant": "The failure is non-termination, which tests cannot observe.", "anchors": "src/message.rs::read_const_length_body_impl, src/serve.rs::serve"}
{"id": "C16", "title": "Content-Length is parsed exactly", "statement": "A Content-Length value is accepted exactly when it is an optional plus sign followed by at least one decimal digit whose value fits the machine word, and then its value is the announced length; any other value makes the request fail without calling the service; an absent header means length zero.", "quantifier": "every header value", "why_tests_cant": "Overflow boundary and unbounded leading zeros.", "anchors": "src/message.rs::Message::get_content_length"}
{"id": "C17", "title": "Conflicting Content-Length headers are refused", "statement": "A request with two Content-Length headers of different value is refused.", "quantifier": "every pair of different lengths", "why_tests_cant": "Request framing must be unambiguous for all inputs.", "anchors": "src/message.rs::Message::get_content_length, src/internal/multi_map.rs::MultiMap::get"}
{"id": "C18", "title": "The served body size is limited", "statement": "The server never delivers a request whose body is larger than max_body_size.", "quantifier": "every configuration and request", "why_tests_cant": "A bound over all requests.", "anchors": "src/serve.rs::serve, src/message.rs::Message::read_const_length_body, src/config/http.rs::HttpConfig::max_body_size"}
{"id": "C19", "title": "The limited body reader honours the limit", "statement": "read_body_normal never adds more than max_body_size bytes to the body, and returns ReachMaxBodySize, adding nothing, exactly when the announced Content-Length (or the chunk size) exceeds the limit.", "quantifier": "every header set, byte sequence, limit, capacity and segmentation", "why_tests_cant": "A bound over all inputs.", "anchors": "src/message.rs::Message::read_body_normal, src/message.rs::read_chunked_body_impl"}
{"id": "C20", "title": "Chunked bodies are decoded", "statement": "Reading a chunked body yields the concatenation of all its chunks and consumes it through the final zero-size chunk.", "quantifier": "every sequence of chunks", "why_tests_cant": "Unbounded numbers of chunks and hexadecimal sizes.", "anchors": "src/message.rs::read_chunked_body_impl"}
{"id": "C21", "title": "Chunked requests keep the connection in sync", "statement": "A request sent with Transfer-Encoding: chunked is either refused or delivered with its decoded body; its body bytes are never interpreted as a further request.", "quantifier": "every chunked request", "why_tests_cant": "Request smuggling is an adversarial, all-inputs property.", "anchors": "src/serve.rs::serve, src/message.rs::Message::read_const_length_body"}
{"id": "C22", "title": "Responses are written in request order, one per delivered request", "statement": "The bytes written on a connection are the concatenation, in order, of the serialised responses produced for the delivered requests (the last one possibly cut short if writing fails); nothing else is ever written.", "quantifier": "every service, byte sequence, write-failure schedule and number of requests", "why_tests_cant": "All histories of a connection.", "anchors": "src/serve.rs::serve, src/message.rs::Message::write_to"}
{"id": "C23", "title": "Pipelined requests stay in sync", "statement": "If a client sends any sequence of well-formed requests back to back, each with its announced body, the service sees exactly that sequence: same number, same order, each with its own method, target, version and headers.", "quantifier": "every finite sequence of well-formed requests with arbitrary bodies and every segmentation", "why_tests_cant": "Unbounded sequences; de-synchronisation shows only after specific body contents.", "anchors": "src/serve.rs::serve"}
{"id": "C24", "title": "Requests on a connection are isolated", "statement": "What the service sees of a request, and the response body sent for it, do not depend on earlier requests on the same connection.", "quantifier": "every sequence of requests on one connection", "why_tests_cant": "State carried over between requests is a history property.", "anchors": "src/message.rs::Message::clear, src/message.rs::MessageBody::clear, src/serve.rs::serve"}
{"id": "C25", "title": "A refused request gets no response and ends the connection", "statement": "When a head or body cannot be read, the service is not called for it, no byte is written for it and nothing further is read as a request.", "quantifier": "every byte sequence that fails to parse after any number of good requests", "why_tests_cant": "All malformed inputs after all histories.", "anchors": "src/serve.rs::serve"}
{"id": "C26", "title": "A closing connection stops", "statement": "After the service asks to close, fails, or upgrades the connection, or after a write fails, no further request is delivered and no further byte is written, whatever the client sends.", "quantifier": "every service, every following byte sequence", "why_tests_cant": "All continuations.", "anchors": "src/serve.rs::serve"}
{"id": "C27", "title": "Responses are self-delimiting", "statement": "Every response written contains exactly one Content-Length line whose value is the length in bytes of the body that follows the blank line, whatever Content-Length headers the service had set.", "quantifier": "every response message, header history, body and representation of the header storage", "why_tests_cant": "All header histories, including deletions and more than 36 headers.", "anchors": "src/message.rs::Message::write_to, src/internal/multi_map.rs::MultiMap::set"}
{"id": "C28", "title": "Responses can be read back", "statement": "Reading the bytes of a written response with the head and body reader yields the same start line, the same header values for every name and the same body, and consumes exactly the response.", "quantifier": "every response with well-formed start line and headers (set by any sequence of set, append, remove, clear and each_mut; delete breaks the header map, see C37), any body, any number of headers", "why_tests_cant": "Round trip over an infinite domain.", "anchors": "src/message.rs::Message::write_to, src/message.rs::Message::read_headers"}
{"id": "C29", "title": "Header values cannot inject lines", "statement": "The number of header lines in a written response equals the number of values set by the service (plus Content-Length); a value cannot introduce another header or end the head.", "quantifier": "every header name and value a service may pass", "why_tests_cant": "Adversarial, all-inputs property.", "anchors": "src/respw.rs::ResponseWriter::header, src/message.rs::Message::write_to"}
{"id": "C30", "title": "The hello-world response is a valid HTTP response", "statement": "Every response of the hello-world service starts with the status line 'HTTP/x.y 200 OK' with a single version and carries the body 'Hello world!'.", "quantifier": "every request and every position on the connection", "why_tests_cant": "Depends on the request version and on the connection history.", "anchors": "src/services/helloworld.rs::HelloWorldService::http, src/respw.rs::ResponseWriter::version"}
{"id": "C31", "title": "HTTP/1.0 requests close the connection", "statement": "The hello-world service keeps the connection open after a request only if its version is at least 1.1.", "quantifier": "every request version", "why_tests_cant": "All version strings.", "anchors": "src/services/helloworld.rs::HelloWorldService::http, src/reqr.rs::RequestReader::version"}
{"id": "C32", "title": "The file-system service answers with a valid response", "statement": "Every response written for a file-system service starts with a non-empty version, a status code and a reason.", "quantifier": "every request", "why_tests_cant": "All requests and histories.", "anchors": "src/services/fs.rs::FsService::http, src/message.rs::Message::write_to"}
{"id": "C33", "title": "Request version parsing", "statement": "version() returns (a, b) exactly when the version text is 'http' in any case, '/', a decimal a, '.', a decimal b, both at most 255; otherwise it fails.", "quantifier": "every version text", "why_tests_cant": "Infinite domain of texts.", "anchors": "src/reqr.rs::RequestReader::version"}
{"id": "C34", "title": "The service is told whether the connection is encrypted", "statement": "The connection context handed to the service says over_tls exactly when the connection was accepted over TLS.", "quantifier": "every accepted connection", "why_tests_cant": "Decision over configuration and handshake outcome.", "anchors": "src/main.rs::accept_loop, src/main.rs::tls_accept_loop, src/ctx.rs::ConnContext"}
{"id": "C35", "title": "TLS is never silently dropped", "statement": "If a certificate or a key is configured for a service, no connection of that service is ever served in plain text: either the TLS configuration loads and every served connection completed a handshake in time, or the service does not start.", "quantifier": "every configuration, every outcome of file loading, binding and handshakes", "why_tests_cant": "All failure combinations.", "anchors": "src/config/tls.rs::TlsConfig::load, src/main.rs::run, src/main.rs::accept_loop, src/main.rs::tls_accept_loop"}
{"id": "C36", "title": "The multi-map behaves like a map from names to value lists", "statement": "For every history of set, append, remove, clear and each_mut with non-empty names, every lookup returns what a plain map from names to lists of values would return; the switch of representation is not observable.", "quantifier": "every history of operations and every name", "why_tests_cant": "All histories and all sizes around the switch.", "anchors": "src/internal/multi_map.rs::MultiMap"}
{"id": "C37", "title": "Deleting a name removes only that name", "statement": "After delete(k), lookups of k return nothing, lookups of other names are unchanged, and later set and append calls behave as on a plain map.", "quantifier": "every history containing delete", "why_tests_cant": "The corruption needs a particular later operation order.", "anchors": "src/internal/multi_map.rs::MultiMap::delete, src/internal/multi_map.rs::MultiMap::set, src/internal/multi_map.rs::MultiMap::append"}
{"id": "C38", "title": "remove deletes every equal value and nothing else", "statement": "remove(k, v) deletes every occurrence of v under k, keeps the other values under k in order and leaves other names alone.", "quantifier": "every value list, including consecutive and repeated matches", "why_tests_cant": "The scanning loop's index arithmetic must be right for every arrangement.", "anchors": "src/internal/multi_map.rs::MultiMap::remove, src/internal/multi_map.rs::MultiMap::vec_remove_by_value"}
{"id": "C39", "title": "clear gives a fresh map", "statement": "After clear the multi-map behaves in every later history exactly like a newly created one.", "quantifier": "every history before and after clear", "why_tests_cant": "Residual state may show only much later.", "anchors": "src/internal/multi_map.rs::MultiMap::clear"}
{"id": "C40", "title": "each visits every name once", "statement": "each visits every stored name exactly once with all its values, stops at the first visitor refusal, and len is the number of names stored.", "quantifier": "every history without delete, every visitor, every iteration order of the hash map", "why_tests_cant": "Iteration order of the hash map is unspecified and varies between runs.", "anchors": "src/internal/multi_map.rs::MultiMap::each, src/internal/multi_map.rs::MultiMap::len"}
{"id": "C41", "title": "The multi-map never panics", "statement": "No history of multi-map operations, including delete and empty names, reaches an unwrap of a missing table.", "quantifier": "every history of all operations", "why_tests_cant": "All histories.", "anchors": "src/internal/multi_map.rs::MultiMap::map_append, src/internal/multi_map.rs::MultiMap::getall"}
{"id": "C42", "title": "WebSocket upgrade decision", "statement": "upgrade succeeds exactly when the request has a non-empty Sec-WebSocket-Key, and then the response is 101 with the accept value, version, upgrade and connection headers; otherwise the response is untouched.", "quantifier": "every request and response message", "why_tests_cant": "All header sets.", "anchors": "src/ws_impl.rs::upgrade"}
{"id": "C43", "title": "WebSocket upgrade requires an upgrade request", "statement": "A request without the Upgrade and Connection headers of RFC 6455 is not upgraded.", "quantifier": "every request", "why_tests_cant": "All header sets.", "anchors": "src/ws_impl.rs::upgrade"}
{"id": "C44", "title": "Compressed bodies round-trip", "statement": "For any codec whose decoder inverts its encoder, writing any sequence of pieces to a compressing body and ending it, then writing the result to a decompressing body and ending it, yields the concatenation of the pieces.", "quantifier": "every sequence of writes and every lawful codec that accepts whole writes", "why_tests_cant": "All write sequences and codec states.", "anchors": "src/message.rs::MessageBody, src/compression.rs"}
{"id": "C45", "title": "Decompression loses no input", "statement": "Every received body byte reaches the decompressor, even when the decompressor accepts only part of a write.", "quantifier": "every codec that may accept a write partially, every body", "why_tests_cant": "Short writes depend on codec internals and data.", "anchors": "src/message.rs::Message::write_compression, src/compression.rs"}
{"id": "C46", "title": "Clearing a message empties it", "statement": "After clear a message has empty start line, no headers and an empty body.", "quantifier": "every message state, compressed or not, including after codec failures", "why_tests_cant": "All states.", "anchors": "src/message.rs::Message::clear, src/message.rs::MessageBody::clear"}
{"id": "C47", "title": "Message bodies are in exactly one mode", "statement": "In every history of body operations the body is either plain or in a codec, except after a codec failure until the next clear; which operations panic is exactly determined by that mode.", "quantifier": "every history of body operations and codec results", "why_tests_cant": "All histories.", "anchors": "src/message.rs::MessageBody"}
{"id": "C48", "title": "Size strings mean what they say", "statement": "Parsing a sequence of decimal numbers with units b, k/kb, m/mb, g/gb (any letter case, spaces anywhere) yields the sum of number times 1, 2^10, 2^20, 2^30.", "quantifier": "every such string with value below 2^64", "why_tests_cant": "Infinite domain; a wrong constant shows only for one unit.", "anchors": "src/config/bytes_size.rs::SizeInBytesVisitor, src/config/split_uint.rs::split_unit"}
{"id": "C49", "title": "Duration strings mean what they say", "statement": "Parsing a sequence of decimal numbers with units ms, s, m, h, d, w (any letter case, spaces anywhere, no unit means milliseconds) yields the sum in milliseconds.", "quantifier": "every such string with value below 2^64", "why_tests_cant": "Infinite domain.", "anchors": "src/config/duration_in_millis.rs::DurationInMillsVisitor, src/config/split_uint.rs::split_unit"}
{"id": "C50", "title": "Malformed size strings are errors, not crashes", "statement": "Parsing any string as a size or duration returns a value or an error; it never panics, and never returns a value different from the mathematical sum.", "quantifier": "every string and build profile", "why_tests_cant": "All strings.", "anchors": "src/config/split_uint.rs::split_unit, src/config/bytes_size.rs, src/config/duration_in_millis.rs"}
{"id": "C51", "title": "Unit splitting is lossless", "statement": "Splitting a string into number/unit pairs and concatenating them gives back the string without its white space; every number part consists of numeric characters and every unit part of non-numeric ones.", "quantifier": "every string on which it does not panic", "why_tests_cant": "All strings.", "anchors": "src/config/split_uint.rs::split_unit"}
{"id": "C52", "title": "Effective TCP settings are usable and explicit values win", "statement": "After configuration fix-up every buffer size is at least 4096 bytes; an explicit size of at least 4096 is kept; an unset one takes the root value if that is usable, else 8 KiB; the TLS timeout is positive.", "quantifier": "every pair of root and service configurations", "why_tests_cant": "All combinations of set and unset values.", "anchors": "src/config/tcp.rs::TcpConfig::autofix, src/config/tls.rs::TlsConfig::autofix"}
{"id": "C53", "title": "Effective HTTP settings are usable and explicit values win", "statement": "After configuration fix-up every limit is positive, a positive explicit limit is kept, and the idle timeout is zero or at least ten seconds.", "quantifier": "every pair of root and service configurations", "why_tests_cant": "All combinations.", "anchors": "src/config/http.rs::HttpConfig::autofix"}
{"id": "C54", "title": "Services inherit the root HTTP limits", "statement": "A service that does not set an HTTP limit uses the limit of the root configuration.", "quantifier": "every root and service configuration and every limit", "why_tests_cant": "All combinations.", "anchors": "src/config/http.rs::HttpConfig::autofix"}
{"id": "C55", "title": "Configuration fix-up is idempotent", "statement": "Applying the fix-up to an already fixed TCP, TLS or HTTP configuration changes nothing.", "quantifier": "every configuration and root", "why_tests_cant": "All combinations.", "anchors": "src/config/tcp.rs, src/config/tls.rs, src/config/http.rs"}
{"id": "C56", "title": "Services get distinct identities", "statement": "After a successful fix-up, services have pairwise different numeric identities, all different from the root's, and non-empty trimmed names.", "quantifier": "every set of services in every iteration order", "why_tests_cant": "All service sets and hash orders.", "anchors": "src/config/mod.rs::Config::autofix"}
{"id": "C57", "title": "Service names are unique", "statement": "After a successful load no two services have the same name.", "quantifier": "every configuration and set of included files", "why_tests_cant": "All combinations of names.", "anchors": "src/config/mod.rs::Config::autofix, src/config/mod.rs::Config::include"}
{"id": "C58", "title": "Including service files", "statement": "Loading either fails or makes exactly one service per visible regular file matched, named by its trimmed name or else its file name without extension, without changing services already present. It succeeds exactly if every pattern is valid, every visible regular file matched can be read as a service, and all names are different.", "quantifier": "every list of glob results and file contents", "why_tests_cant": "All directory contents.", "anchors": "src/config/mod.rs::Config::include, src/utils/paths.rs::namewithoutext"}
{"id": "C59", "title": "File names without extension", "statement": "namewithoutext never panics, and its result is the last path component without its last extension: result + '.' + extension (or the result alone) is the component.", "quantifier": "every path string", "why_tests_cant": "All path strings.", "anchors": "src/utils/paths.rs::namewithoutext"}
{"id": "C60", "title": "Log files of one configuration are distinct", "statement": "All file appenders of one logging configuration write to pairwise different paths, and paths of services with different names differ from each other and from the root's.", "quantifier": "every list of appenders, every set of distinct service names", "why_tests_cant": "All combinations of levels and repetitions.", "anchors": "src/config/logging.rs::LoggingConfig::init"}
{"id": "C61", "title": "Log records reach exactly their service's appenders", "statement": "A record is written to exactly those appenders that belong to its service and whose filter accepts it, each once, in configuration order.", "quantifier": "every configuration of services and appenders, every record", "why_tests_cant": "All configurations.", "anchors": "src/config/mod.rs::Config::logging, src/logging/consumer.rs::Consumer"}
{"id": "C62", "title": "Each appender gets its own rendering", "statement": "Every appender that accepts a record receives the bytes produced by the renderer it was configured with.", "quantifier": "every configuration with any number of renderers, every record", "why_tests_cant": "Index arithmetic over all configurations; the failure is undefined behaviour.", "anchors": "src/logging/consumer.rs::Consumer::comsume, src/logging/consumer.rs::Consumer::consume_when_single_renderer"}
{"id": "C63", "title": "Level filters", "statement": "An appender with level L accepts exactly the records at least as severe as L, or exactly those at L if configured with equal; raising the verbosity never loses records; an unknown level name means trace.", "quantifier": "every level, record and configuration string", "why_tests_cant": "Finite table lifted over all records.", "anchors": "src/config/logging.rs::FilterConifg, src/config/logging.rs::LoggingConfig::init"}
{"id": "C64", "title": "Logging set-up validation", "statement": "Set-up succeeds exactly when there is at least one renderer and one appender, renderer names differ ignoring case and every appender's renderer exists; then every appender is bound to a renderer with its name.", "quantifier": "every list of renderers and appenders", "why_tests_cant": "All configurations.", "anchors": "src/logging/consumer.rs::Consumer::init"}
{"id": "C65", "title": "Logging can be disabled", "statement": "With logging disabled for the root and all services the server still starts.", "quantifier": "every configuration with logging disabled everywhere", "why_tests_cant": "All configurations.", "anchors": "src/config/mod.rs::Config::logging, src/config/logging.rs::LoggingConfig::init, src/logging/consumer.rs::Consumer::init"}
{"id": "C66", "title": "Log records are delivered in order, without loss or duplication", "statement": "In every interleaving of logging threads and the consumer, the records handed to appenders are exactly a prefix of the records sent, in channel order, and each thread's records keep their order.", "quantifier": "every interleaving of any number of threads", "why_tests_cant": "All schedules.", "anchors": "src/logging/dispatcher.rs::Dispatcher, src/logging/dispatcher.rs::init"}
{"id": "C67", "title": "flush is a barrier", "statement": "When a flush call returns, every record sent before it (by anyone) has been handed to its appenders and the appenders have been flushed.", "quantifier": "every interleaving", "why_tests_cant": "All schedules.", "anchors": "src/logging/dispatcher.rs::Dispatcher::flush"}
{"id": "C68", "title": "Shutdown loses no log records", "statement": "When dropping the shutdown guard returns, every record sent before is in its file.", "quantifier": "every interleaving, including process exit right after", "why_tests_cant": "The loss needs a specific schedule of two threads and process exit.", "anchors": "src/logging/dispatcher.rs::ShutdownGuard, src/logging/dispatcher.rs::init"}
{"id": "C69", "title": "A log file holds exactly what was written", "statement": "After a flush, a file appender's file content is its previous content followed by all written records in order, for any buffer size and record sizes.", "quantifier": "every sequence of writes and flushes", "why_tests_cant": "All record sizes relative to the buffer.", "anchors": "src/logging/file_appender.rs::FileAppender"}
{"id": "C70", "title": "Rotation loses no records", "statement": "Every record written to a rotating appender ends up, after a flush, in the current file or a rotated file.", "quantifier": "every sequence of writes, times and rename/open outcomes", "why_tests_cant": "Depends on buffer fill at the moment of rotation and on file system outcomes.", "anchors": "src/logging/rotation_file_appender.rs::RotationFileAppender::rotate, src/logging/file_appender.rs::FileAppender::reopen"}
{"id": "C71", "title": "Rotation happens once per period", "statement": "A rotating appender never rotates before the end of the current period, and rotates at most once per period, in any time zone.", "quantifier": "every sequence of times and every time-zone offset function", "why_tests_cant": "All clocks and zones, including daylight-saving changes.", "anchors": "src/logging/rotation_file_appender.rs::RotationFileAppender::rotate, src/utils/luxon.rs::endofday, src/utils/luxon.rs::endofhour"}
{"id": "C72", "title": "JSON log lines are JSON", "statement": "Every record is rendered by the JSON renderer as exactly one line holding one valid JSON object with the record's fields.", "quantifier": "every record", "why_tests_cant": "All message texts and key/value lists.", "anchors": "src/logging/json_line_renderer.rs::JsonLineRenderer::render"}
{"id": "C73", "title": "Colouring does not change the text", "statement": "Removing the colour escape sequences from a coloured line gives the plain line for the record, for every colour scheme.", "quantifier": "every record without escape characters and every colour scheme", "why_tests_cant": "All records and schemes.", "anchors": "src/logging/colorful_line_renderer.rs::ColorfulLineRenderer::render"}
{"id": "C74", "title": "Log key/values", "statement": "A record's routing target is the last numeric 'service' key (0 if none), and its other non-empty keys are kept in order with their JSON text; level, message, file and line are those given (an absent file is empty, an absent line 0).", "quantifier": "every list of key/value pairs", "why_tests_cant": "All lists.", "anchors": "src/logging/item.rs::Item, src/logging/item.rs::KvsVisitor"}
{"id": "C75", "title": "The per-core runner waits for its services", "statement": "In per-core mode the process does not end before every service has run to its end, and ends once they all have.", "quantifier": "every interleaving of the main thread and the service threads", "why_tests_cant": "All schedules; the failures are a race and a livelock.", "anchors": "src/main.rs::run_per_core"}
{"id": "C76", "title": "One failing service does not stop the others", "statement": "In multi-thread mode the process ends only after every service has ended, whatever the outcome (error or panic) of each.", "quantifier": "every set of services, outcomes and completion orders", "why_tests_cant": "All orders and outcomes.", "anchors": "src/main.rs::run_multi_threads, src/main.rs::run"}
{"id": "C77", "title": "A connection delivers finitely many requests", "statement": "On every connection the number of delivered requests is bounded by the number of bytes received (at least seven bytes per request), so a finite stream never keeps the service busy for ever.", "quantifier": "every stream, service and write schedule", "why_tests_cant": "All streams.", "anchors": "src/serve.rs::serve, src/message.rs::Message::read_headers"}
{"id": "C78", "title": "Exact transcript of the hello-world service", "statement": "For every sequence of well-formed requests, request j (from 0) is answered by the status line 'HTTP/1.1', directly followed by 'HTTP/a.a' if its version has major number a, ' 200 OK', the headers server and content-length, and j+1 copies of 'Hello world!'; the connection is closed after the first request with major version 0, and only then.", "quantifier": "every list of well-formed requests, segmentation, buffer capacity, limits and codec", "why_tests_cant": "Unbounded sequences of requests of unbounded shape.", "anchors": "src/services/helloworld.rs::HelloWorldService::http, src/reqr.rs::RequestReader::version, src/message.rs::Message::write_to, src/serve.rs::serve"}
{"id": "C79", "title": "Exact transcript of the file-system service", "statement": "Every well-formed request to a file-system service is answered by the same 25 bytes: two spaces, CRLF, 'content-length: 0', CRLF, CRLF.", "quantifier": "every list of well-formed requests, segmentation, buffer capacity, limits and codec", "why_tests_cant": "Unbounded sequences of requests of unbounded shape.", "anchors": "src/services/fs.rs::FsService::http, src/message.rs::Message::write_to"}
{"id": "C80", "title": "Modes of a message body, exactly", "statement": "In every history of body operations the body has exactly one of: its buffer, a codec, neither. Which operations panic and what the mode is afterwards depends only on the mode and, for end, on whether the codec delivers its buffer.", "quantifier": "every history of body operations, every codec", "why_tests_cant": "All histories and codec results.", "anchors": "src/message.rs::MessageBody"}
{"id": "C81", "title": "Every accepted connection is served once", "statement": "A service that binds, loads and initialises serves, in order and once each, every connection accepted before Ctrl-C (with TLS: those whose handshake succeeds within the time limit), keeps going after failed accepts, and ends without error exactly at Ctrl-C.", "quantifier": "every sequence of accept results and handshakes, every configuration", "why_tests_cant": "Unbounded sequences of events.", "anchors": "src/main.rs::accept_loop, src/main.rs::tls_accept_loop, src/main.rs::run"}
{"id": "C82", "title": "Exact value of size strings", "statement": "Every spelling of a sum of sizes is read as the sum with a gigabyte taken for 1204 megabytes; that is the intended value exactly when no positive number of gigabytes occurs.", "quantifier": "every spelling whose value so computed is below 2^64, every build profile", "why_tests_cant": "Infinite domain.", "anchors": "src/config/bytes_size.rs::SizeInBytesVisitor, src/config/split_uint.rs::split_unit"}
{"id": "C83", "title": "Exactly which strings are sizes and durations", "statement": "An ASCII string is read as a size (or duration) n exactly if it is empty and n is 0, or it spells a sum whose value is n: below 2^64 in a debug build, modulo 2^64 with each number below 2^64 in a release build.", "quantifier": "every ASCII string, every Unicode table agreeing on ASCII", "why_tests_cant": "All strings.", "anchors": "src/config/bytes_size.rs::SizeInBytesVisitor, src/config/duration_in_millis.rs::DurationInMillsVisitor, src/config/split_uint.rs::split_unit"}
{"id": "C84", "title": "Fix-up changes nothing else", "statement": "Apart from the documented inherited fields, defaulted sizes and times, trimmed names and assigned numbers, fixing up a configuration changes nothing: hosts, services, addresses and TLS file names of every service are those given; a TLS certificate or key is never inherited.", "quantifier": "every configuration that is accepted", "why_tests_cant": "All combinations of root and service settings.", "anchors": "src/config/mod.rs::Config::autofix, src/config/service.rs::ServiceConfig::autofix, src/config/tcp.rs::TcpConfig::autofix"}
{"id": "C85", "title": "Log files of different services are different files", "statement": "If two services have different names, no log file of one is the same file (same path components after dropping empty and single-dot components) as a log file of the other.", "quantifier": "every two different service names, every log path, every two lists of appenders", "why_tests_cant": "All pairs of names, including names with slashes and dots.", "anchors": "src/config/logging.rs::LoggingConfig::init"}
{"id": "C86", "title": "Loading a configuration", "statement": "Loading never panics. When it succeeds the services are exactly those of the file and the included files, or, if there are none, one hello-world service called helloworld at 0.0.0.0:8080 for every host. It succeeds exactly if the file can be read, the work directory entered, the included files loaded, and every service has a name that is not blank and, for file services, an existing root.", "quantifier": "every parsed configuration, every list of include results, every iteration order of the services table", "why_tests_cant": "All configurations and map orders.", "anchors": "src/config/mod.rs::Config::load"}
{"id": "C87", "title": "Accepted configurations", "statement": "Fixing up succeeds exactly if every service key is non-empty after trimming and every file service has a non-empty existing root.", "quantifier": "every configuration and every file system", "why_tests_cant": "All configurations.", "anchors": "src/config/mod.rs::Config::autofix, src/config/service.rs::ServiceConfig::autofix, src/config/service.rs::FsService::autofix"}
{"id": "C88", "title": "Which appenders belong to which service", "statement": "After fix-up, noting the appenders never panics, and the list noted for a service number holds exactly the positions of the appenders created for that number, in increasing order.", "quantifier": "every accepted configuration", "why_tests_cant": "All numbers of services and appenders.", "anchors": "src/config/mod.rs::Config::logging"}
{"id": "C89", "title": "Starting logging", "statement": "For an accepted configuration, starting logging never panics, and succeeds exactly if every log file can be opened, at least one appender results and no logger is installed yet; the consumer then has exactly the configured appenders in order, and the maximum level is the configured one, or trace.", "quantifier": "every accepted configuration, every iteration order of the renderer name set, every file system", "why_tests_cant": "All configurations and hash set orders.", "anchors": "src/config/mod.rs::Config::logging, src/logging/mod.rs::init, src/logging/consumer.rs::Consumer::init"}
{"id": "C90", "title": "Records about a service go to the service", "statement": "Records the server writes about a service's connections and requests are records of that service.", "quantifier": "every service number, message and time", "why_tests_cant": "All services and messages.", "anchors": "src/serve.rs, src/services/helloworld.rs, src/logging/item.rs::Item"}
{"id": "C91", "title": "Starting without a configuration file", "statement": "Starting without a configuration file serves the same default hello-world service as starting with an empty file.", "quantifier": "every blank file argument, every file system, every hash order", "why_tests_cant": "All environments.", "anchors": "src/main.rs, src/config/mod.rs::Config::load"}
{"id": "C92", "title": "Flush and shutdown end", "statement": "As long as the consumer thread does not panic, every flush call and the drop of the guard can return after a bounded number of actions of the consumer.", "quantifier": "every reachable state of every interleaving", "why_tests_cant": "A liveness property over all schedules.", "anchors": "src/logging/dispatcher.rs::Dispatcher::flush, src/logging/dispatcher.rs::ShutdownGuard, src/logging/dispatcher.rs::init"}
{"id": "C93", "title": "A failure of the logging thread does not spread", "statement": "If the logging thread panics, other threads can still log, flush and shut down without panicking or waiting for ever.", "quantifier": "every interleaving", "why_tests_cant": "All schedules and all points of failure.", "anchors": "src/logging/dispatcher.rs::Dispatcher, src/logging/dispatcher.rs::ShutdownGuard"}
{"id": "C94", "title": "Flushed records are in the file", "statement": "When a flush call returns, every record sent before the call by any thread that a file appender accepts is in its file, in order, after the previous content, unless a write of the system failed.", "quantifier": "every interleaving, every buffer size, every record and every file content", "why_tests_cant": "All schedules and all record sizes.", "anchors": "src/logging/dispatcher.rs::Dispatcher::flush, src/logging/file_appender.rs::FileAppender"}
{"id": "C95", "title": "Rotated files get their own names", "statement": "A log file dir/base.ext is rotated to a name in the same directory made of base, the date (and, on later tries, the clock) and the same extension; the name differs from the log file's own, and different dates or different log files give different names.", "quantifier": "every directory, base name, extension, date and clock text", "why_tests_cant": "All paths and dates.", "anchors": "src/logging/rotation_file_appender.rs::RotationFileAppender::new, src/logging/rotation_file_appender.rs::RotationFileAppender::rotate"}
{"id": "C96", "title": "The first write of a new period rotates", "statement": "If renaming, opening and writing work, the first write in a later local day (hour) than the one in which the log file was opened moves that file to its dated name and starts a new one, in any time zone.", "quantifier": "every time, zone, record and file system state", "why_tests_cant": "Depends on days of unusual length and on midnights that do not exist or come twice.", "anchors": "src/logging/rotation_file_appender.rs::RotationFileAppender::rotate, src/utils/luxon.rs::endofday, src/utils/luxon.rs::local"}
{"id": "C97", "title": "A rotated file is dated by its contents", "statement": "The date in the name of a rotated file is the local day (hour) in which the file was opened and its records were written.", "quantifier": "every sequence of writes, every zone", "why_tests_cant": "All times and zones.", "anchors": "src/logging/rotation_file_appender.rs::RotationFileAppender::rotate"}
{"id": "C98", "title": "The server is online", "statement": "What the server has done (requests delivered to the service, responses written) when a part of the client's bytes has arrived does not depend on what the client sends later; and once it is not waiting for input, nothing the client sends has any effect.", "quantifier": "every service, every byte sequence, every continuation, any two segmentations", "why_tests_cant": "It relates all pairs of streams with a common prefix.", "anchors": "src/serve.rs::serve, src/message.rs::Message::read_headers, src/message.rs::read_const_length_body_impl"}
{"id": "C99", "title": "Complete requests are answered at once", "statement": "When a client has sent any number of complete well-formed requests and any strict prefix of a further one and then stays silent with the connection open, every complete request has been delivered and answered completely and the server waits for the rest; it never needs a byte beyond the end of a request to answer it.", "quantifier": "every sequence of well-formed requests, every cut position of the next one, every segmentation, every service that keeps the connection open", "why_tests_cant": "All request sequences and cut positions; the failure would be a deadlock.", "anchors": "src/serve.rs::serve, src/message.rs::Message::read_headers, src/message.rs::Message::read_const_length_body"}
{"id": "C100", "title": "Idle clients are disconnected", "statement": "A client that sends nothing for longer than the configured idle timeout, between requests or inside one, is disconnected.", "quantifier": "every configuration, every sequence of requests and every position at which the client stops", "why_tests_cant": "All positions and all waiting times.", "anchors": "src/serve.rs::serve, src/config/http.rs::HttpConfig::idle_timeout"}
{"id": "C101", "title": "each_mut changes exactly the names it visits", "statement": "After any sequence of header operations other than delete, each_mut with any visitor changes exactly the values of the names visited: those up to and including the first at which the visitor returns false, in the order in which each shows them, or all of them if it never does; every other name keeps its values.", "quantifier": "every delete-free operation sequence, every visitor, every iteration order", "why_tests_cant": "Unbounded histories, all visitor functions and all hash-map orders.", "anchors": "src/internal/multi_map.rs::MultiMap::each_mut"}
{"id": "C102", "title": "White space around a header name is refused", "statement": "A request with white space between a header name and its colon, or with a header line that begins with white space, is refused; no header is taken from such a line.", "quantifier": "every well-formed request with such a line anywhere in it, every name, value, number of spaces and segmentation", "why_tests_cant": "All positions, names and paddings.", "anchors": "src/message.rs::Message::read_headers"}
{"id": "C103", "title": "Header names are tokens", "statement": "Every header name a service sees consists of token characters only (letters, digits and !#$%&'*+-.^_`|~); a request with another name is refused.", "quantifier": "every byte sequence sent by a client", "why_tests_cant": "All inputs.", "anchors": "src/message.rs::Message::read_headers"}
{"id": "C104", "title": "The words of the request line", "statement": "Every request a service sees has a method and a target that are not empty and contain no space.", "quantifier": "every byte sequence sent by a client", "why_tests_cant": "All inputs.", "anchors": "src/message.rs::Message::read_headers"}
{"id": "C105", "title": "Only known versions reach a service", "statement": "A request whose version is not HTTP/1.0 or HTTP/1.1 is not passed to the service.", "quantifier": "every version text, every request", "why_tests_cant": "All version texts.", "anchors": "src/serve.rs::serve, src/message.rs::Message::read_headers"}
{"id": "C106", "title": "HTTP/1.1 requests have one Host header", "statement": "An HTTP/1.1 request without a Host header, or with more than one, is refused.", "quantifier": "every well-formed HTTP/1.1 request with a number of Host headers other than one", "why_tests_cant": "All requests.", "anchors": "src/serve.rs::serve, src/message.rs::Message::read_headers"}
{"id": "C107", "title": "Ctrl-C stops the server", "statement": "When the user presses Ctrl-C, every accept loop ends and the process ends.", "quantifier": "every number of services, every execution, every moment at which the signal arrives", "why_tests_cant": "The failure is a race between a connection and the signal.", "anchors": "src/main.rs::accept_loop, src/main.rs::tls_accept_loop, src/main.rs::run_multi_threads"}
{"id": "C108", "title": "Requests in progress survive Ctrl-C", "statement": "Connections on which a request is in progress when Ctrl-C stops the services are served to the end of that request before the process ends.", "quantifier": "every number of services and connections, every execution", "why_tests_cant": "All interleavings.", "anchors": "src/main.rs::accept_loop, src/main.rs::run_multi_threads"}
{"id": "C109", "title": "The configuration outlives its users", "statement": "The configuration, to which services hold references of lifetime 'static made with transmute, is not freed while a service or a connection is running.", "quantifier": "every execution, both runtime modes", "why_tests_cant": "All interleavings; the failure is a use after free.", "anchors": "src/main.rs::main, src/main.rs::run_per_core, src/main.rs::run_multi_threads"}
{"id": "C110", "title": "A response is written exactly", "statement": "Whatever portions the connection takes bytes in, what has reached it when a response is written is a prefix of the response's head and body, in order, nothing twice; a write that reports success has handed over all of it; a connection that takes at least one byte per call gets the whole response; an error or a stall of the connection is what ends the write.", "quantifier": "every head and body, every buffer size, every sequence of answers of the connection (any number of bytes, zero, error, never ready)", "why_tests_cant": "All partial-write schedules and sizes relative to the buffer.", "anchors": "src/message.rs::Message::write_to, src/serve.rs::serve"}
{"id": "C111", "title": "A small response is one write", "statement": "A response no longer than the write buffer (read_stream_buf_size) is offered to the connection as one slice, head and body together; if the connection takes it all there is no second write.", "quantifier": "every head and body that fit, every buffer size, every behaviour of the connection", "why_tests_cant": "All sizes, including the boundary.", "anchors": "src/message.rs::Message::write_to, src/serve.rs::serve"}
{"id": "C112", "title": "Responses reach the wire in the order of the requests", "statement": "On a connection with any number of requests, what the connection has taken is the concatenation of the responses in the order of the requests, each complete if the connection never fails; buffering changes neither which requests are delivered nor how the connection ends.", "quantifier": "every service, limits, input stream, buffer size and behaviour of the connection", "why_tests_cant": "All services, streams, buffer sizes and partial-write schedules.", "anchors": "src/serve.rs::serve, src/message.rs::Message::write_to"}
{"id": "C113", "title": "A client that does not read is dropped", "statement": "A client that does not read its responses does not keep its connection for ever: the idle timeout of the configuration ends it.", "quantifier": "every request, service, limits and buffer size", "why_tests_cant": "Never-ending executions.", "anchors": "src/serve.rs::serve, src/config/http.rs::HttpConfig"}
{"id": "C114", "title": "The write buffer is bounded", "statement": "The connection's write buffer never holds more than read_stream_buf_size bytes, however slowly the client reads and however large the responses are.", "quantifier": "every connection, buffer size and behaviour of the client; every moment of the connection", "why_tests_cant": "It is about every moment of every connection, with every pattern of partial writes; a test sees a few.", "anchors": "src/serve.rs::serve"}
{"id": "C115", "title": "Writes to a plain body are exact", "statement": "Bytes written to a body that is not being compressed, in any pieces and through either write function, are all accepted and are all there, in order, after what the body already held; inner, size and is_empty report exactly that.", "quantifier": "every content, every sequence of pieces and of the two ways to write", "why_tests_cant": "All sequences.", "anchors": "src/message.rs::MessageBody::write, src/message.rs::MessageBody::write_all_to_internal, src/message.rs::MessageBody::size"}
{"id": "C116", "title": "A response says what its service set", "statement": "The status line of a response is made of the version, the code and the reason the service last gave, its headers are those of a plain map after the service's calls, whatever the order of the calls.", "quantifier": "every sequence of calls on a response", "why_tests_cant": "All sequences of calls.", "anchors": "src/respw.rs::ResponseWriter::version, src/respw.rs::ResponseWriter::code, src/respw.rs::ResponseWriter::header, src/respw.rs::ResponseWriter::setheader, src/respw.rs::ResponseWriter::delheader"}
{"id": "C117", "title": "Console output consists of whole records", "statement": "For any sequence of records handed to any number of console appenders, and any scheduling of the blocking threads that write, what standard output shows at any moment is a concatenation of whole records, in which each appender's records appear in the order they were handed over, none twice and none skipped. (Holds for records of up to 2 MiB that end in a line feed, and every rendered record does; false for longer ones: such a record is written in pieces and another appender's record can come between them.)", "quantifier": "all sequences of writes and flushes to all appenders, all schedules of the blocking threads; the negation: any two distinct appenders, every record of 2 to 4 MiB and every other record", "why_tests_cant": "Interleavings inside standard output depend on how blocking threads are scheduled and appear only with records longer than one chunk", "anchors": "src/logging/console_appender.rs:13-45, src/logging/json_renderer.rs, src/logging/color_renderer.rs, src/logging/dispatcher.rs:84-92"}
{"id": "C118", "title": "Console lines appear in the order they were logged", "statement": "If two records are logged one after the other, their lines appear on standard output in that order. (Holds when there is one console appender, for records of any length; false as soon as there are two - say, the root's and a service's -, for every pair of records.)", "quantifier": "all sequences of calls, all schedules; the negation: any two distinct appenders and every pair of lines up to 2 MiB", "why_tests_cant": "A reordering needs two blocking threads to finish in the other order, which a test hits rarely", "anchors": "src/logging/console_appender.rs:13-45, src/logging/dispatcher.rs:84-92, src/logging/consumer.rs"}
{"id": "C119", "title": "A flushed console has shown everything", "statement": "When flush of a console appender returns, every record handed to that appender before has left the process, including text without a line feed that standard output would hold back, whatever the other appenders do meanwhile.", "quantifier": "all sequences of writes (up to 2 MiB each) and flushes to all appenders, all schedules, at any time after the return", "why_tests_cant": "Whether held-back text is out depends on the schedule of the blocking threads and on the buffer of standard output", "anchors": "src/logging/console_appender.rs:13-45, src/logging/consumer.rs"}
{"id": "C120", "title": "The log of a connection tells what happened on it", "statement": "The records of a connection are, in order: that it was made; for every request delivered to the service what the service says about it; why the connection ended; that it was lost (in a release build without the records about the connection and about refused requests). Hello-world says of a request sent by a client exactly: the peer, the method, target and version, every header with its name in lower case and its value, and the body (its text, its size if it is not text, or that it is empty).", "quantifier": "every service, input, segmentation, behaviour of the peer, build; every well-formed request", "why_tests_cant": "All inputs and ways a connection can end", "anchors": "src/serve.rs:12-96, src/services/helloworld.rs:38-63"}
{"id": "C121", "title": "A connection reported made is reported lost", "statement": "In a debug build the log of a connection that is over begins with the record that it was made and ends with the record that it was lost. (True when it ends by a refusal, a failure or a request to close; false when the client closes in the middle of an announced body, and for upgraded connections.)", "quantifier": "every service, input and ending; the negation: every head that announces a body and every shorter part of the body", "why_tests_cant": "The missing record depends on where the client stops", "anchors": "src/serve.rs:22-25, src/serve.rs:91-95"}
{"id": "C122", "title": "Refused requests leave a trace in the log", "statement": "A request that is refused while its head or its body is read leaves a record with the reason. (True of debug builds; false of release builds, which write nothing at all about such a connection.)", "quantifier": "every input that is refused, every service", "why_tests_cant": "All inputs that are refused, for both builds", "anchors": "src/serve.rs:68-89"}
{"id": "C123", "title": "A client cannot forge log lines", "statement": "Whatever a client sends, each record about it occupies lines that cannot be mistaken for another record. (True of all records of hello-world except the one that quotes the body: they are single lines of printable ASCII. That one puts any UTF-8 text of the client's choice on lines of its own, with either renderer.)", "quantifier": "every byte sequence a client sends; the negation: every UTF-8 body", "why_tests_cant": "All inputs: a filter is as good as its worst input", "anchors": "src/services/helloworld.rs:38-63, src/logging/json_line_renderer.rs, src/logging/colorful_line_renderer.rs"}
{"id": "C124", "title": "The default server, end to end", "statement": "Started with an empty configuration file, the program runs exactly one service, on 0.0.0.0:8080 without TLS; every client that connects before Ctrl-C is served; and a client that sends well-formed requests within the default limits (target 8192, header line 6144), none with major version 0, is sent exactly the hello-world answers to them, in order, and nothing else.", "quantifier": "for all file systems and iteration orders at start-up, all sequences of connections, failed accepts and Ctrl-C, all behaviours of the other clients, all lists of well-formed requests, all segmentations of the input and all ways in which the socket takes the output", "why_tests_cant": "It quantifies over every interleaving of clients, every request sequence and every segmentation, and composes configuration, start-up, accepting, parsing, the service and the buffered writer; a test sees one run of each.", "anchors": "src/main.rs:47-107, src/main.rs:168-192, src/main.rs:270-290, src/config/mod.rs:121-175, src/serve.rs:12-96, src/services/helloworld.rs:27-86"}
{"id": "C125", "title": "Settings take effect", "statement": "Two services that differ in a setting can be told apart by some client: every setting of a service influences what its connections do.", "quantifier": "for all pairs of service configurations, all worlds (clients, sockets, certificate files) and all sequences of connections", "why_tests_cant": "That a setting is never read cannot be seen by trying values of it: it has to hold that no input whatsoever makes a difference.", "anchors": "src/serve.rs:27-30, src/ctx.rs:17-34, src/message.rs:353-373, src/config/http.rs:22-46, src/config/tcp.rs:8-23, src/config/service.rs:161-185, src/services/fs.rs:26-36"}
{"id": "C126", "title": "Accepted services can be served", "statement": "A service that the configuration accepts serves connections until Ctrl-C, provided that its address is free and its certificates load.", "quantifier": "for all accepted service configurations, all worlds and all sequences of connections", "why_tests_cant": "The claim is about every configuration that passes validation, not about the ones in the examples.", "anchors": "src/main.rs:168-192, src/config/service.rs:123-142, src/config/mod.rs:149-175"}
{"id": "C127", "title": "TLS configured for the whole server protects its services", "statement": "If the root of the configuration names a certificate and a key, no service without its own serves anybody unencrypted.", "quantifier": "for all root and service settings, all worlds and all sequences of connections", "why_tests_cant": "Needs all combinations of root and service settings; and the failure is silent, the service works.", "anchors": "src/config/tls.rs:19-57, src/config/tcp.rs:26-58, src/main.rs:67-107, src/main.rs:168-192"}
{"id": "C128", "title": "Nothing freed is used while the process ends", "statement": "No thread of a service logs through the logger's dispatcher after main has freed it, or reads the configuration after main has freed it (per-core mode; for the multi-threaded mode see C109).", "quantifier": "for all numbers of services and all interleavings of the main thread with the threads of the services, including failures to create one", "why_tests_cant": "The misuse needs a thread that starts late, or one that cannot be created; then it is undefined behaviour that usually goes unnoticed.", "anchors": "src/main.rs:227-290, src/logging/dispatcher.rs:41-60"}
{"id": "C129", "title": "Exactly these byte strings are accepted as request heads", "statement": "For every byte string that arrives on a connection, every segmentation of it and every set of limits, the head reader (Message::read_headers) accepts if and only if the bytes start with a head of a fixed grammar: a method piece up to the first space (or 128 bytes), a target piece up to the first space (or max_url bytes), a version piece up to the first LF (or 128 bytes) of at least three bytes, and header lines up to a line of two bytes. It then delivers the method, target, version and header values that the grammar assigns, and leaves exactly the rest of the stream. It goes on waiting if and only if the client stays silent after an unfinished head, and refuses everything else. The grammar is unambiguous.", "quantifier": "for all byte strings, segmentations, stream ends, limits and header names", "why_tests_cant": "Tests try some accepted and some refused strings. An if-and-only-if over all byte strings, including the odd accepted ones (arbitrary bytes in place of CR LF, lines without colon, missing final bytes at the end of the stream), cannot be enumerated.", "anchors": "src/message.rs::Message::read_headers, src/internal/multi_map.rs::MultiMap::append"}
{"id": "C130", "title": "What a connection comes to, whatever the client sends", "statement": "For every byte string that a client sends - well-formed or not - every segmentation, every way the stream ends and every set of limits, the sequence of responses of the hello-world service and of the file-system service and the way the connection ends (closed by the service, dropped, waiting, or spinning without end) are exactly those given by a recursive specification over the bytes: a head of the grammar of C129, a body of the announced length, the answer, and so on. The specification gives each byte string one outcome only.", "quantifier": "for all byte strings, segmentations, stream ends, limits and both services", "why_tests_cant": "A test fixes the bytes. This says what happens for all of them, so nothing that a client can send leads to any other behaviour.", "anchors": "src/serve.rs::serve, src/message.rs::Message::read_headers, src/message.rs::Message::read_const_length_body, src/services/helloworld.rs::HelloWorldService::http, src/services/fs.rs::FsService::http"}
{"id": "C131", "title": "The server writes at most a fixed multiple of what it receives", "statement": "For each built-in service there is a factor such that the total number of bytes a connection writes is at most that factor times the number of bytes it received, whatever the client sends.", "quantifier": "for all byte strings, segmentations and stream ends, and all codecs and limits", "why_tests_cant": "The factor has to hold for every conversation length. A test with a few requests sees a modest ratio; the growth only shows in the limit.", "anchors": "src/services/helloworld.rs::HelloWorldService::http, src/services/fs.rs::FsService::http, src/serve.rs::serve"}
{"id": "C132", "title": "A head that can no longer become valid is refused at once", "statement": "As soon as the bytes received on a connection have no continuation that Message::read_headers would accept, it returns an error instead of waiting for more.", "quantifier": "for all byte prefixes, limits and continuations", "why_tests_cant": "The hypothesis quantifies over all continuations of a prefix; a test tries single ones.", "anchors": "src/message.rs::Message::read_headers"}
{"id": "C133", "title": "Every request head that RFC 9112 allows is accepted and delivered as the RFC says", "statement": "For every request head of the grammar of RFC 9112 (method and field names of tchar, target of visible characters, HTTP/ DIGIT . DIGIT, field values of visible characters, bytes from 128 on, spaces and tabs) that is within the configured limits, whatever bytes follow it and however it is segmented, Message::read_headers accepts it, leaves exactly the following bytes, and delivers the method, target, version and for every name the values in order without surrounding whitespace.", "quantifier": "for all RFC 9112 heads within the limits, continuations, segmentations, stream ends and names", "why_tests_cant": "Tests use a few requests of common clients, all of which stay inside the part of the grammar that works.", "anchors": "src/message.rs::Message::read_headers, src/internal/multi_map.rs::MultiMap::append"}
{"id": "C134", "title": "Empty lines before a request line are ignored", "statement": "A server ignores an empty line (CR LF) received before a request line (RFC 9112, 2.2): a request with CR LF in front of it is answered like the request alone.", "quantifier": "for all byte strings after the empty line, all services, limits and segmentations", "why_tests_cant": "Whatever follows the empty line has to be considered, and clients that send it are rare.", "anchors": "src/message.rs::Message::read_headers, src/serve.rs::serve"}
{"id": "C135", "title": "The requests delivered depend on the bytes only", "statement": "For every service whatsoever (any function of request and response messages, different at each request, failing or panicking at will), every byte string a client sends and every segmentation: the requests handed to the service are those that stand in the byte string one after the other from its first byte on, by the grammar of C129 and the announced body lengths - method, target, version, header values and body. Two services that get the same bytes get the same j-th request, if both get that far, and a service that keeps its connections open gets every request there is.", "quantifier": "for all services, codecs, byte strings, segmentations, stream ends, limits and write outcomes", "why_tests_cant": "The quantifier over services is over arbitrary functions of the messages; a test can only try the services that exist.", "anchors": "src/serve.rs::serve, src/message.rs::Message::read_headers, src/message.rs::Message::read_const_length_body, src/message.rs::Message::clear"}
{"id": "C136", "title": "Exactly these byte strings are accepted as chunked bodies", "statement": "For every byte string, segmentation, buffer capacity and limit, Message::read_chunked_body accepts if and only if the bytes start with a line of at most 128 bytes that is a decimal number below 2^64 between white space and at most max_body_size, that many bytes, and a further piece of at most two bytes of UTF-8; it then appends exactly those data bytes and leaves exactly the rest. It goes on waiting if and only if the client stays silent inside such a body, and loops for ever if and only if the client closed before the last announced byte; everything else is refused with an error code, and nothing makes it panic.", "quantifier": "for all byte strings, segmentations, stream ends, buffer capacities, limits and prior body contents", "why_tests_cant": "An if-and-only-if over all byte strings cannot be enumerated.", "anchors": "src/message.rs::Message::read_chunked_body, src/message.rs::read_chunked_body_impl"}
{"id": "C137", "title": "Reading a head breaks no contract of unsafe code", "statement": "While `read_headers` runs, every unsafe call keeps to its documented contract: `set_len` stays within the capacity and over initialised bytes, `get_unchecked_mut` stays within the 256-byte key buffer, `from_utf8_unchecked` gets valid UTF-8; no byte of memory that was never written is read. The result is the same as that of the reader on plain byte strings, the strings of the message are well-formed vectors afterwards whatever the code, and after `Ok` the connection buffer has room for at least two bytes.", "quantifier": "all byte streams and segmentations, ends of stream, limits, growth policies of the allocator, and previous contents of the message and of the buffer", "why_tests_cant": "Undefined behaviour is not an observable failure: a test may pass although an index or a length is out of bounds, and only sees the inputs it tries.", "anchors": "src/message.rs::Message::read_headers, src/message.rs::MAX_HEADER_NAME_LENGTH, src/ctx.rs::ConnContext"}
{"id": "C138", "title": "Body readers expose only initialised memory", "statement": "When a body is read, every byte of the buffer that is made accessible has been written before (the contract of `Vec::set_len`), and what ends up in the body are the bytes the client sent and never old or uninitialised memory.", "quantifier": "all byte streams and segmentations, capacities and contents of the buffer, announced lengths and chunk sizes", "why_tests_cant": "Whether memory is initialised does not show in a test: the allocator often returns zeroed or recycled pages, and the exposed bytes are rarely looked at.", "anchors": "src/message.rs::read_const_length_body_impl, src/message.rs::read_chunked_body_impl, src/message.rs::Message::read_body_normal"}
{"id": "C139", "title": "Strings are valid UTF-8", "statement": "Whenever `read_headers` has returned, the three strings of the start line are valid UTF-8, as `String` requires; in particular in every request a service gets.", "quantifier": "all byte streams and segmentations, limits, previous contents of the message, services", "why_tests_cant": "The strings are filled through `as_mut_vec`, without checks by the compiler; tests send ASCII.", "anchors": "src/message.rs::Message::read_headers, src/serve.rs::serve"}
{"id": "C140", "title": "An appender is borrowed at most once per record", "statement": "For each log record that is handled, the consumer makes at most one mutable reference to each appender, and only to appenders it has.", "quantifier": "all configurations accepted by the fix-up, all sequences of records that can be delivered (C61)", "why_tests_cant": "Aliased mutable references are undefined behaviour without a symptom; the compiler cannot see it because the references go through raw pointers.", "anchors": "src/logging/consumer.rs::AppenderPtr, src/logging/consumer.rs::Consumer::comsume, src/logging/consumer.rs::Consumer::consume_when_single_renderer, src/config/mod.rs::Config::logging"}
{"id": "C141", "title": "A configuration file means what it says", "statement": "A main file or service file is accepted with a given result exactly if that result is what the file says: each setting is taken from the entry under one of its documented names (or, if the section is written as an array, from its place), a setting without entry has its default, values have the right type and range, and no setting is given twice.", "quantifier": "all TOML values, profiles, Unicode tables; whether the crate refuses unknown entries of enum variants or not", "why_tests_cant": "There are about sixty names for some thirty settings in ten sections; a wrong alias or a default in one of them goes unnoticed by tests that use the others.", "anchors": "src/config/mod.rs::Config, src/config/service.rs::ServiceConfig, src/config/tcp.rs::TcpConfig, src/config/http.rs::HttpConfig, src/config/tls.rs::TlsConfig, src/config/logging.rs::LoggingConfig, src/config/runtime.rs::RuntimeConfig"}
{"id": "C142", "title": "Mistakes in a configuration file are reported", "statement": "A file with an entry that is not a setting of its section, with a setting given twice, or with a value of the wrong type is refused.", "quantifier": "all TOML values, in all sections", "why_tests_cant": "One cannot test all misspellings.", "anchors": "src/config/mod.rs::Config, src/config/service.rs::ServiceConfig, src/config/tcp.rs::TcpConfig, src/config/http.rs::HttpConfig, src/config/tls.rs::TlsConfig"}
{"id": "C143", "title": "TLS named in the configuration file is used", "statement": "If the file names a certificate and a key for a service, in the way the names of the other settings can be written, then the service encrypts all its connections or does not serve.", "quantifier": "all configuration files and included files, file systems, hash orders, sequences of connections and TLS handshakes", "why_tests_cant": "The server runs and answers in both cases; only the bytes on the wire differ. All other sections accept capitalised names.", "anchors": "src/config/tls.rs::TlsConfig, src/config/tcp.rs::TcpConfig, src/config/mod.rs::Config::load, src/tcp.rs::run_tcp"}
{"id": "C144", "title": "An empty section is the same as none", "statement": "A section without entries means the same as leaving the section out.", "quantifier": "all configuration files; sections runtime, tcp, http, services and logging", "why_tests_cant": "The difference lies between two kinds of default (serde's and the type's), which tests with complete sections do not see.", "anchors": "src/config/mod.rs::Config, src/config/logging.rs::LoggingConfig, src/config/logging.rs::LoggingConfig::default"}
{"id": "C145", "title": "A configured early answer is given", "statement": "If the file configures an early answer for a service, the service behaves differently from the one without it for the requests that match.", "quantifier": "all service files, kinds of service, early answers", "why_tests_cant": "That an accepted setting is never used needs knowledge of all uses.", "anchors": "src/config/service.rs::EarlyReturn, src/config/service.rs::Service, src/services/mod.rs"}
{"id": "C146", "title": "The order of the entries of a file does not matter", "statement": "Two files that differ only in the order of the entries of their tables, at any depth, are read as the same configuration (the services possibly in another order); one is accepted if the other is.", "quantifier": "all TOML values and all sequences of exchanges of entries", "why_tests_cant": "There are exponentially many orders.", "anchors": "src/config/mod.rs::Config, src/config/service.rs::ServiceConfig"}
{"id": "C147", "title": "Reading a configuration file never panics", "statement": "Loading a configuration file, with the files it includes, returns a configuration or an error. Of several mistakes in a section the first in the file decides what happens.", "quantifier": "all TOML values of the file and included files, file systems, hash orders, profiles", "why_tests_cant": "The panics are in the reading of sizes and durations, on strings a test would have to guess.", "anchors": "src/config/mod.rs::Config::load, src/config/bytes_size.rs::SizeInBytesVisitor, src/config/duration_in_millis.rs::DurationInMillsVisitor"}
{"id": "C148", "title": "From the configuration file to the bytes on the wire", "statement": "If a configuration file is accepted, each service of it or of a file it includes is started once, under the limits the file says (its own, else those of the main section for target and line size, else the built-in ones). If its buffers are of a size that can be allocated (at most isize::MAX; they are if no section tcp is given), then on each of its connections whose client takes what it is sent, a hello-world or file-system service sends exactly the answers that the grammar of requests and the service's reply determine for the bytes the client sends, and the connection ends as they say. Forwarding and upstream services serve nobody. Without a section tls every client is served, unencrypted.", "quantifier": "all TOML values, included files, file systems, hash orders; all worlds: clients, segmentations, write sizes, buffer capacities; all sequences of connections", "why_tests_cant": "It is a statement about all files times all inputs; a test runs one configuration with a few requests.", "anchors": "src/main.rs::run, src/config/mod.rs::Config::load, src/serve.rs::serve, src/message.rs::Message::read_headers, src/services/helloworld.rs, src/services/fs.rs"}
{"id": "C149", "title": "Log records tell the local date and time", "statement": "With the default layout the time in a log record is the local date and time of the record, written YYYY-MM-DD HH:MM:SS.mmm, with the date of the Gregorian calendar.", "quantifier": "all times with a local year from 0 to 9999, all time zones", "why_tests_cant": "A test checks a few dates; leap years, ends of months and zones multiply.", "anchors": "src/utils/luxon.rs::fmtlocal, src/logging/json_line_renderer.rs::JsonLineRenderer::render, src/logging/colorful_line_renderer.rs::ColorfulLineRenderer::render"}
{"id": "C150", "title": "Sorting log lines by their time sorts them by when they happened", "statement": "Of two records the earlier one has the smaller text as its time, and records of different milliseconds have different texts.", "quantifier": "all pairs of times, all time zones", "why_tests_cant": "It fails for one hour a year.", "anchors": "src/utils/luxon.rs::fmtlocal"}
{"id": "C151", "title": "Log records stand in the order of their times", "statement": "Records are handed to the appenders in the order of the times they carry.", "quantifier": "all interleavings of any number of threads", "why_tests_cant": "The window between taking the time and sending the record is a few instructions wide.", "anchors": "src/logging/item.rs::Item::from, src/logging/dispatcher.rs::log"}
{"id": "C152", "title": "Rotated files sort by their date", "statement": "Of two rotations of a log file the one on the earlier local day (hour) gives the file the smaller name, and the date in the name is that of the local day of the rotation.", "quantifier": "all times with local years from 0 to 9999, all time zones, file names, rounds of the renaming loop", "why_tests_cant": "It needs rotations on all pairs of days.", "anchors": "src/logging/rotation_file_appender.rs::RotationFileAppender::rotate, src/utils/luxon.rs::fmtlocal"}
{"id": "C153", "title": "An unusable layout of times is refused", "statement": "If the layout of times in the configuration cannot be used, the server says so at start-up; it does not panic later.", "quantifier": "all layouts, all configurations, all records, all times", "why_tests_cant": "Tests use layouts that work.", "anchors": "src/config/mod.rs::Config::logging, src/utils/luxon.rs::fmtlocal, src/logging/consumer.rs::Consumer::comsume"}
{"id": "C154", "title": "The layout of times of a service is used", "statement": "Records of a service have their time in the layout that the service's logging section says, if it says one.", "quantifier": "all configurations, all layouts, all times", "why_tests_cant": "A test sees one configuration; the claim that no setting has any effect is about all of them.", "anchors": "src/config/mod.rs::Config::logging, src/config/logging.rs::LoggingConfig"}
{"id": "C155", "title": "Times do not spoil JSON lines", "statement": "Whatever the layout of times, a line written by the JSON renderer for a record with plain texts is JSON.", "quantifier": "all layouts, all records, all times", "why_tests_cant": "It depends on characters in the layout that a test does not have.", "anchors": "src/logging/json_line_renderer.rs::JsonLineRenderer::render"}
{"id": "C156", "title": "A failed start is reported", "statement": "If the configuration cannot be loaded or logging cannot be started, the process ends with an exit status other than 0.", "quantifier": "for all configurations and environments (files that can or cannot be opened, iteration orders, an installed logger or not)", "why_tests_cant": "The failing case does not end: a test that waits for it sees a timeout, and which configurations lead there is a question about all of them.", "anchors": "src/main.rs:270-290, src/config/mod.rs:177-249, src/logging/dispatcher.rs:41-131, src/logging/consumer.rs:49-76"}
{"id": "C157", "title": "The exit status tells whether the services ran", "statement": "The process ends with status 0 exactly if its services were started and were stopped by Ctrl-C; if one of them failed it ends with another status.", "quantifier": "for all sets of services, all worlds, all sequences of connections, failed accepts and Ctrl-C, both runtime modes", "why_tests_cant": "It quantifies over every way in which services can fail.", "anchors": "src/main.rs:194-268, src/main.rs:270-290"}
{"id": "C158", "title": "Failures of services are in the log", "statement": "For each service that fails or panics there is one error record, which says which service it was and why, and there is none for the others.", "quantifier": "for all sets of services, all worlds and all orders in which they end", "why_tests_cant": "Records are compared over all runs: that two different failures leave the same record is not visible in one run.", "anchors": "src/main.rs:204-221, src/logging/item.rs"}
{"id": "C159", "title": "The file named on the command line is loaded", "statement": "If a file is named on the command line, the configuration is loaded from that file.", "quantifier": "for all arguments, both build profiles", "why_tests_cant": "Depends on the build profile: a test runs in one of them.", "anchors": "src/main.rs:47-65"}
{"id": "C160", "title": "A record that could not be written goes to the new file", "statement": "If writing a record to a rotating appender fails and a rotation is due, the call still succeeds when the rotation and the second write do: the old file keeps all it held under a dated name, and after a flush the new file holds the whole record and nothing else. Without a rotation the call reports the failure.", "quantifier": "All file systems, records, buffer states, results of system writes, clocks and names.", "why_tests_cant": "Needs a disk that fails at the moment of a rotation; no test has one, and the combinations of buffer state, failing write and time are unbounded.", "anchors": "src/logging/rotation_file_appender.rs:42-55, src/logging/rotation_file_appender.rs:125-191, src/logging/file_appender.rs:30-36"}
{"id": "C161", "title": "Failing disk writes put nothing foreign into a log file", "statement": "Whatever the results of the system's writes, a log file holds what it held before followed by bytes of the records in the order in which they were written, none twice; other files do not change. With rotation, every file of the file system holds what some file held before (or nothing) followed by such bytes.", "quantifier": "All sequences of writes and flushes, all buffer and record sizes, all sequences of results of system writes (including writes that fail after any number of bytes), with rotation: all clocks and results of renaming and opening.", "why_tests_cant": "The results of the system's writes can be any sequence, in combination with any state of the two buffers (BufWriter, tokio File); tests use a disk that works.", "anchors": "src/logging/file_appender.rs:30-36, src/logging/file_appender.rs:40-67"}
{"id": "C162", "title": "A log file consists of whole records", "statement": "A record whose write was reported as successful is whole in the file after the next successful flush, and the file has no parts of records.", "quantifier": "All records, buffer sizes, and sequences of results of system writes.", "why_tests_cant": "Only shows when the disk takes a part of a write that was reported as done earlier.", "anchors": "src/logging/file_appender.rs:30-36, src/logging/consumer.rs:108-124, src/logging/consumer.rs:197-211"}
{"id": "C163", "title": "The accept value of the WebSocket handshake is the one of RFC 6455", "statement": "For every request whose first Sec-WebSocket-Key value is not empty, upgrade adds a Sec-WebSocket-Accept header whose single value is the base64 text of the SHA-1 hash of the key followed by 258EAFA5-E914-47DA-95CA-C5AB0DC85B11, as FIPS 180-4 and RFC 4648 define them; it has 28 characters and is the only such text.", "quantifier": "every request message with a non-empty key of any length, every response message as handed out by the connection loop", "why_tests_cant": "Keys of all lengths: where the padding of the hash starts a block of its own, and where the key ends in relation to the magic text, depends on the length.", "anchors": "src/ws_impl.rs::upgrade"}
{"id": "C164", "title": "After the handshake the connection is a WebSocket", "statement": "A client whose first request on a connection carries a Sec-WebSocket-Key, to a service that uses upgrade and hands over with Protocol::WebSocket, gets a response with the line HTTP/1.1 101 Switching Protocols, the accept value, upgrade and connection headers and no Content-Length, and the connection stays open for frames. A connection no request of which carries a key does not become a WebSocket.", "quantifier": "every well-formed first request with a non-empty key, every read segmentation, every iteration order of the header table, whatever the client sends afterwards", "why_tests_cant": "All requests and everything that may follow.", "anchors": "src/ws_impl.rs::upgrade, src/serve.rs, src/ws.rs::serve, src/message.rs::write_to"}
{"id": "C165", "title": "Which files and services a configuration has", "statement": "A configuration file is accepted exactly if it can be read, its working directory can be entered, every pattern it names is a glob, every visible regular file found by them is a service (hidden files, directories and entries that cannot be looked at are skipped), no name is used twice, every service has a name that is not blank, and every file service a root that exists. The services are then exactly those of the file and of the included files, each under its own name or else the name of the file; only if there is none, a hello-world service at 0.0.0.0:8080.", "quantifier": "all TOML values of the file and of included files, file systems, patterns, hash orders", "why_tests_cant": "A test tries a few directories; the statement is about every combination of files, good and bad, in every order.", "anchors": "src/config/mod.rs::Config::load, src/config/mod.rs::Config::include, src/config/mod.rs::Config::autofix"}
{"id": "C166", "title": "The memory a connection needs is bounded by the limits", "statement": "While a request is handled, what the server keeps of it (start line, header names, header values, body) is at most what the configured limits allow for one request: max_url_size, max_headers_count times max_header_line_size and max_body_size, and two words of at most 128 bytes. However many requests a client sends on a connection, no more is kept.", "quantifier": "every limit setting, service, environment and byte stream; every exchange of the connection; every order in which the header map is visited", "why_tests_cant": "the bound has to hold for every stream and every number of requests on one connection; a test uses one stream", "anchors": "src/message.rs:136-171, src/message.rs:181-268, src/message.rs:270-325, src/serve.rs:32-50, src/internal/multi_map.rs"}
{"id": "C167", "title": "A connection is closed when the client asks for it", "statement": "After a request with Connection: close, or an HTTP/1.0 request without Connection: keep-alive, the server answers no further request on that connection and closes it; after every other well-formed HTTP/1.1 request the connection stays open and the next request is answered (RFC 9112, 9.3).", "quantifier": "every sequence of well-formed requests, both services, every limit setting, segmentation and buffer size", "why_tests_cant": "what has to be tried is every combination of version and Connection options at every position of a connection", "anchors": "src/serve.rs:35-50, src/services/helloworld.rs, src/services/fs.rs, src/reqr.rs"}
{"id": "C168", "title": "The answer to HEAD has no content", "statement": "The answer to a HEAD request has the header fields of the answer to the same GET request, and no content after its head (RFC 9110, 9.3.2).", "quantifier": "every sequence of well-formed requests on a connection, every position of the HEAD request in it, both services", "why_tests_cant": "position on the connection and previous requests change the answer; a test tries one", "anchors": "src/services/helloworld.rs, src/services/fs.rs, src/message.rs:511-549"}
{"id": "C169", "title": "A client that waits for 100 Continue gets it", "statement": "When a request with Expect: 100-continue announces content, the server either asks for the content with 100 Continue or answers with a final status before the content has come; it does not leave the client waiting (RFC 9110, 10.1.1). A client that sends the content without waiting has it delivered.", "quantifier": "every well-formed request with content, every service, every part of the content already sent, every segmentation", "why_tests_cant": "that nothing is ever written is a statement about all later states of the connection, and about every service", "anchors": "src/serve.rs:35-39, src/message.rs:270-325"}
{"id": "C170", "title": "Exactly these byte strings are requests for the limited body reader", "statement": "For every byte string, segmentation, buffer capacity and limits: read_headers followed by read_body_normal accepts if and only if the bytes begin with a head of the head grammar and a body - in the chunk format of read_chunked_body if a Transfer-Encoding value contains chunked, whatever Content-Length says, and otherwise of the length that the first Content-Length value announces - of at most max_body_size bytes; it delivers exactly that body and leaves exactly what follows. It goes on waiting exactly if the client is silent inside such a body. It loops for ever exactly if the client closed the connection before the last announced byte, and refuses everything else with an error code. The grammar is unambiguous.", "quantifier": "for all byte strings, segmentations, stream ends, limits, capacities and prior body contents", "why_tests_cant": "an exact language: all strings inside it and all outside it", "anchors": "src/message.rs:327-351, src/message.rs:181-268, src/internal/header.rs:1-13"}
{"id": "C171", "title": "From a connection to the log file of its service", "statement": "When a flush of the log returns, the log file of an appender holds, after what it held before, the line of every record logged before the flush that is for this appender, per thread in the order of the calls, and nothing else but lines of records for this appender; for a connection that has ended these are the lines of its story: what was requested and how it ended", "quantifier": "every configuration, every number of connections and threads with any programs, every interleaving of the logging threads and the consumer, every result of the writes of the system to other files, every byte stream on the connection", "why_tests_cant": "goes through six layers (serve loop, log macro, channel, consumer thread, choice of appender, buffered file among other files on the same disk) with an unbounded number of threads; a test sees one interleaving and one configuration", "anchors": "src/serve.rs:12-96, src/services/helloworld.rs:38-63, src/logging/dispatcher.rs:20-37, src/logging/dispatcher.rs:100-128, src/logging/consumer.rs:78-213, src/logging/file_appender.rs:30-67, src/config/mod.rs:177-249"}
{"id": "C172", "title": "A rotation loses at most one buffer", "statement": "If no write of the system fails and the dated names are free, then after any calls of a rotating appender and a final flush all calls have succeeded, and everything that was written is, in order, in differently named files, the first of which still begins with what the log file held before; there are at most as many gaps as rotations, each gap is at the end of what was written before a rotation and is at most one buffer long, and nothing is missing after the last rotation. Without long days (hours) this is at most one buffer for each later day (hour) in which something is written", "quantifier": "every buffer size, every earlier content of the disk, every sequence of writes and flushes at any times, every record length", "why_tests_cant": "a bound over all sequences of writes, flushes and rotations: how much is lost depends on what is in the buffer when a rotation comes, which a test sees for a few sequences only", "anchors": "src/logging/rotation_file_appender.rs:13-205, src/logging/file_appender.rs:10-67"}
{"id": "C173", "title": "From a connection to log files that rotate", "statement": "In a configuration with any number of log files of which any may rotate, if no write of the system fails and the dated names are free: when a flush of the log returns, the lines of the records logged before it that are for an appender, per thread in the order of the calls, have been put in this order into the files of this appender; at most one buffer is missing for each rotation of this appender, at the end of a file; an appender that does not rotate misses nothing, whatever the others do. For a connection that has ended these are the lines of its story", "quantifier": "every configuration whose records can be delivered (C61), every number of connections and threads with any programs, every interleaving of the logging threads and the consumer, every time at which each call of an appender happens, every refusal of renaming and opening, every earlier content of the disk", "why_tests_cant": "several files that rotate independently on one disk, an unbounded number of threads and records, and any clock; a test sees one interleaving on one or two days", "anchors": "src/logging/dispatcher.rs:100-128, src/logging/consumer.rs:78-213, src/logging/rotation_file_appender.rs:13-205, src/logging/file_appender.rs:10-81, src/config/logging.rs:94-175, src/serve.rs:12-96"}
{"id": "C174", "title": "Clients are served while the log is broken", "statement": "A failure of the log does not stop the service: when the thread that writes the log has ended by a panic, requests are still answered", "quantifier": "every service, input, segmentation and behaviour of the peer, every number of threads with any log calls, every interleaving, every moment of the panic, everything that happens after it", "why_tests_cant": "the panic can hit between any two steps of any connection, and the claim is about everything that can happen afterwards, however long", "anchors": "src/logging/dispatcher.rs:18-40, src/logging/dispatcher.rs:87-133, src/serve.rs:12-96, src/services/helloworld.rs:38-77, src/services/fs.rs:26-36"}
{"id": "C175", "title": "No request makes the behaviour of the logger undefined", "statement": "Whatever clients send, the thread that writes the log stays inside its vectors, so a request cannot make the behaviour of the program undefined through the log", "quantifier": "every configuration that was fixed up and starts, every service and client, every number of threads with any log calls, every interleaving", "why_tests_cant": "undefined behaviour (get_unchecked outside a vector) has no result a test could compare; it depends on the order of the appenders of the whole configuration and happens on another thread than the request", "anchors": "src/logging/consumer.rs:124-195, src/logging/dispatcher.rs:100-128, src/config/mod.rs:181-206, src/config/logging.rs:94-176, src/services/helloworld.rs:38-63, src/serve.rs:12-96"}
{"id": "C176", "title": "The process goes on while a service runs and ends when all have, whatever happens to the log", "statement": "In multi-thread mode a service runs on until its own task ends, whatever happens to the other services and to the logger; the process ends only when all services have ended, and when they have, it does end, with status 0", "quantifier": "every number of services, every way and order in which they end, every number of threads with any log calls, every interleaving, with and without a panic of the logger's thread", "why_tests_cant": "the outcome depends on the order of a panic on the logger's thread, the end of a service and the round of the join loop; a process that hangs while it unwinds cannot be told in a test from one that is slow", "anchors": "src/main.rs:194-225, src/main.rs:270-290, src/logging/dispatcher.rs:18-60, src/logging/dispatcher.rs:87-133"}
{"id": "C177", "title": "The thread that writes the log does not panic", "statement": "With a configuration that the program accepts, the thread that writes the log works on every record to the end and is ready for the next one, on every day of every year in every time zone; so no log call panics and clients go on being served", "quantifier": "every accepted configuration, every number of threads with any log calls, every interleaving, every sequence of clock readings, zones and outcomes of system calls seen by the appenders", "why_tests_cant": "it takes a rotation on a day whose midnight does not exist or exists twice in the local zone (a few days a year in some countries), and a record for the daily file on that day; a test runs in one zone, on the day it runs", "anchors": "src/logging/dispatcher.rs:87-128, src/logging/consumer.rs:98-215, src/logging/rotation_file_appender.rs:42-59, src/logging/rotation_file_appender.rs:128-200, src/utils/luxon.rs:40-91"}
{"id": "C178", "title": "What waits to be logged is bounded", "statement": "There is a bound on the records, and on the bytes of their messages, that wait between the threads that log and the thread that writes the log: a client cannot make the server hold an unbounded backlog. What waits is never lost: the records sent are those written, the one in hand and those waiting, in order.", "quantifier": "all configurations' logs, all runs of the logging threads and the consumer, all clients", "why_tests_cant": "A test sees the channel drained in time; the backlog needs a consumer slower than the clients (a slow disk or terminal) and a client that sends on, in an interleaving that a test does not choose.", "anchors": "src/logging/dispatcher.rs:18-24, src/logging/dispatcher.rs:61-64, src/logging/dispatcher.rs:102-112, src/services/helloworld.rs:38-63"}
{"id": "C179", "title": "What is logged is at most a fixed multiple of what was received", "statement": "For each built-in service there is a factor such that the messages a connection logs have at most that factor times as many bytes as the connection received, up to a constant.", "quantifier": "for all byte strings, segmentations and stream ends, all codecs, limits and behaviours of the peer", "why_tests_cant": "The growth is quadratic in the number of requests on one connection; with the few requests of a test it looks linear.", "anchors": "src/services/helloworld.rs:38-63, src/message.rs:90-113, src/serve.rs:12-96"}
{"id": "C180", "title": "No client shuts out the others", "statement": "Clients that send no complete request do not keep the server from serving others: whoever connects is served eventually.", "quantifier": "every number of file descriptors, every service and configuration, every behaviour of the other clients, every interleaving", "why_tests_cant": "The default limit on descriptors is large; a test would have to exhaust it and wait for ever to see that nobody else is served.", "anchors": "src/main.rs:80-105, src/serve.rs:35-96, src/message.rs:284-298"}
{"id": "C181", "title": "A failing accept costs next to nothing", "statement": "While no file descriptor is free, the accept loop waits until that can have changed: it does not go through failing accepts, nor does it log a record for each of them; and a failed accept changes nothing for the connections.", "quantifier": "every number of descriptors, every state, every build", "why_tests_cant": "Needs exhausted descriptors; what is wrong is processor time and the number of records, not a wrong answer.", "anchors": "src/main.rs:80-105, src/main.rs:115-127"}
{"id": "C182", "title": "A Content-Length consists of digits", "statement": "A request whose Content-Length is anything else than a string of digits (RFC 9110, 8.6) is not delivered to a service.", "quantifier": "every service, request, byte sequence and segmentation", "why_tests_cant": "The number parser of the standard library accepts one spelling more than the RFC; a test has to hit on it, and the disagreement only shows behind a proxy that reads the header differently.", "anchors": "src/message.rs:256-264, src/message.rs:283-298, src/serve.rs:35-60"}
{"id": "C183", "title": "A request with both Content-Length and Transfer-Encoding does not smuggle another", "statement": "When a request says chunked and has a Content-Length, too, it is refused, or read in chunks as RFC 9112, 6.3 demands: nothing inside its chunks is delivered as a request of its own.", "quantifier": "every service that keeps the connection open, every head with both headers, every request hidden in the chunks, every segmentation", "why_tests_cant": "Each request by itself is answered correctly in a test; the attack needs a peer that goes by the other header and a hidden request of any shape and length.", "anchors": "src/message.rs:256-298, src/serve.rs:35-60"}
{"id": "C184", "title": "The two body readers agree", "statement": "read_const_length_body, which serve calls, and read_body_normal deliver the same body and leave the same bytes, whatever the headers and the bytes that follow, as long as the body is within max_body_size.", "quantifier": "every header set, stream, segmentation, capacity and limit", "why_tests_cant": "A statement about two functions on all header sets and all streams; only one of the two is in use, so no test compares them.", "anchors": "src/message.rs:274-298, src/message.rs:327-351, src/internal/header.rs:1-13"}
{"id": "C185", "title": "Chunks are recognised as RFC 9112 says", "statement": "read_body_normal reads chunks exactly if chunked, in any case, is the last transfer coding of the request.", "quantifier": "every list of Transfer-Encoding values, every stream and limit", "why_tests_cant": "There are unboundedly many values that contain the letters without being the coding, and 127 spellings with capital letters.", "anchors": "src/internal/header.rs:1-13, src/message.rs:327-351"}
{"id": "C186", "title": "The records can be read back from a log file", "statement": "Two different sequences of records give different log files: from the lines of a file one can tell level, time, place and message of every record that was written into it, and nothing that a client sends adds a record.", "quantifier": "every two lists of records, both renderers; every record and every client for the negation", "why_tests_cant": "Injectivity on lists of records of any length; a test compares the lines of a few records it has chosen itself.", "anchors": "src/logging/json_line_renderer.rs:19-79, src/logging/colorful_line_renderer.rs:43-87, src/services/helloworld.rs:38-63"}
{"id": "C187", "title": "A service outlives a failing accept", "statement": "When an accept fails, the service goes on: it accepts the next connection as soon as a file descriptor is free, whatever has happened to the logger.", "quantifier": "every limit on open files, every behaviour of the clients, every number of other threads with any log calls, every interleaving, debug and release builds, with and without a panic of the logger's thread", "why_tests_cant": "The accept loop ends only if three things come together - a debug build, a dead logging thread and no free descriptor - in some interleaving of all threads; a test would have to exhaust descriptors after breaking the log.", "anchors": "src/main.rs:80-105, src/main.rs:109-126, src/logging/dispatcher.rs:20-24"}
{"id": "C188", "title": "Clients in the TLS handshake hold up others for a bounded time only", "statement": "With TLS, as long as at most c connections are past the handshake, fewer than there are file descriptors, a client with k others before it in the queue is accepted within k / (limit - c) + 1 handshake time limits, whatever the others do; and only those whose handshake succeeds in time are served.", "quantifier": "every limit on open files, every time limit, every handshake of every client, every order of events, without bound on the number of clients", "why_tests_cant": "A bound on waiting for every number of clients and every schedule; a test would wait for real time limits with a few clients.", "anchors": "src/main.rs:109-166"}
{"id": "C189", "title": "From a connection to standard output", "statement": "In a configuration with any number of consoles, when a flush of the log has returned, standard output shows whole lines only; those of each console begin with the lines of all records that were logged before the flush and are for it, per thread in the order of the calls, and nothing is there that was not logged. With one console, the lines of a connection that has ended are those of its story, in order, each once. With the default configuration (an empty file; two consoles) all lines of the story of a connection to its service are shown, those of the root and those of the service each in order. (For lines of up to 2 MiB; see C117 for longer ones.)", "quantifier": "every configuration whose records can be delivered (C61), every number of connections and threads with any programs, every interleaving of the logging threads, the consumer and the blocking threads that write, any calls that follow", "why_tests_cant": "The order on the terminal comes out of three queues and up to one blocking thread per console; a test sees one schedule.", "anchors": "src/logging/console_appender.rs:13-20, src/logging/consumer.rs:89-213, src/logging/dispatcher.rs:22-128, src/serve.rs:11-99"}
{"id": "C190", "title": "Per-core mode: services do not depend on each other or on the log, and nothing logged is lost at the end", "statement": "In per-core mode a service runs on until it ends by itself, whatever happens to the other services and to the logger; when all services have ended the process ends, and by then every record they logged has been handed to the appenders", "quantifier": "every number of services, every number of tasks on their threads with any log calls, every interleaving of the main thread, the threads of the services and the logger's thread, with and without a panic of the logger's thread", "why_tests_cant": "the outcome depends on the order of the spin lock of the main thread, the ends of the services and a panic on the logger's thread; a process that waits for ever in a drop cannot be told in a test from one that is slow", "anchors": "src/main.rs:227-290, src/logging/dispatcher.rs:18-60, src/logging/dispatcher.rs:87-133"}
{"id": "C191", "title": "Decompressing body readers read the same bytes", "statement": "read_const_length_body_decompression and read_chunked_body_decompression return the same codes and leave the same bytes in the stream as the readers without decompression, and hand to the decoder exactly the bytes that those put into the body, in order.", "quantifier": "all streams, segmentations, buffer capacities, lengths and limits, and all decoders, including ones that take less than they are given or report errors", "why_tests_cant": "They are not called anywhere, and the tests in compression.rs feed a decoder by hand; no test varies the decoder's answers.", "anchors": "src/message.rs:157-245, src/message.rs:270-325"}
{"id": "C192", "title": "A compressed body that cannot be decompressed or is too large is refused", "statement": "When a body is read with decompression, the reader refuses it if the decoder reports an error or if it expands beyond max_body_size.", "quantifier": "all lawful codecs, all compressed bodies within the limit, all segmentations; for errors: all codecs", "why_tests_cant": "A test with one compressed file cannot show what other files expand to; the error of the decoder is dropped by a wildcard assignment.", "anchors": "src/message.rs:270-272, src/message.rs:186-245, src/message.rs:318-325"}
{"id": "C193", "title": "From the configuration file to the log files", "statement": "For an accepted file the log destinations are what its sections ask for: an entry Console is the console; an entry File of the main section is the file LOGPATH/httpd.LEVEL.log, of a service LOGPATH/NAME/LEVEL.log, with the position of the entry before .log if an earlier entry of the section has that file, and with the level, equal, daily and buffer size of the entry. LOGPATH is what the file says, else ./logs/; a disabled section asks for nothing; nothing else is opened. Starting up fails only if one of these files cannot be opened. When a flush returns, such a file has the lines of a connection that are for the entry, under the conditions of C173.", "quantifier": "all files, file systems for include, orders of iteration, files that can or cannot be opened; all runs of the dispatcher, disks without failing calls", "why_tests_cant": "The names come out of parsing, merging of included files, trimming of names and the choice of a free name; all files and orders cannot be tried.", "anchors": "src/config/mod.rs:Config::load,src/config/mod.rs:Config::logging,src/config/logging.rs:LoggingConfig::init"}
{"id": "C194", "title": "Serving does not depend on standard output", "statement": "Which connections a service serves and the exit status of the process are the same whether or not the lines the process prints can be written (for example because the reader of the pipe has gone).", "quantifier": "all sets of services, all worlds, all outcomes of every single print; services on one runtime", "why_tests_cant": "Needs a standard output that fails at a chosen line; tests run with one that works.", "anchors": "src/main.rs:176, src/main.rs:194-225, src/main.rs:270-290"}
{"id": "C195", "title": "What is announced is served", "statement": "The line 'httpd: listening @ ADDRESS, serve as KIND' is printed for exactly the services that accept connections, with their address and kind, and says tls exactly if their connections are encrypted.", "quantifier": "all services, certificates that load or do not, addresses that can or cannot be bound, all sequences of connections, failed accepts and Ctrl-C", "why_tests_cant": "The line and the accept loop are in different functions; tests look at neither together with failing certificates or the kinds that are not written yet.", "anchors": "src/main.rs:67-107, src/main.rs:168-192, src/config/service.rs:144-151, src/config/tls.rs:34-57"}
{"id": "C196", "title": "Compressed bodies round-trip through write_all with any codec that keeps to the contract of Write", "statement": "Using write_all, writing any pieces to a compressing body and ending it, then writing the result, cut in any way, to a decompressing body and ending it, yields the concatenation of the pieces, even if the codec takes only part of each write. And for every codec: when write_all succeeds, the codec has taken exactly the bytes given.", "quantifier": "all pieces and cuts, all levels and kinds, all codecs that take at least one byte of a non-empty write (the decoder: within an encoding) and whose decoder inverts its encoder; for the last sentence all codecs", "why_tests_cant": "Codecs take whole writes when the pieces are small, as in tests; what happens on a short write depends on their inner buffers.", "anchors": "src/message.rs:32-47, src/message.rs:52-111, src/compression.rs:3-62"}
{"id": "C197", "title": "From the command line to the answers", "statement": "If the file named on the command line (in a debug build ./httpd.toml) is accepted, does not ask for per-core mode, and log, runtime and standard output work, then the process runs exactly the services the file and its included files ask for, each once (a hello-world service at 0.0.0.0:8080 if there is none). Each connection whose client takes what it is sent gets the bytes that the grammar of requests gives for the kind and limits the file says. A service without TLS whose address is free is announced with its address and kind and serves everybody who connects; forwarding and upstream services serve nobody. If all services are of the first sort, the process ends, with status 0, exactly if Ctrl-C stops each of them. If the file is not accepted nothing is served or said and the status is not 0.", "quantifier": "all command lines, TOML values, included files, file systems, hash orders, all worlds: clients, segmentations, write sizes, sequences of connections, failed accepts and Ctrl-C", "why_tests_cant": "A test starts the program with one file and one client; the claim spans all files, all clients and all ways the bytes may be cut, through every layer of the program at once.", "anchors": "src/main.rs:47-65, src/main.rs:168-225, src/main.rs:270-290, src/config/mod.rs:70-147, src/serve.rs:13-110"}
{"id": "C198", "title": "Per-core mode starts a thread for every service", "statement": "In per-core mode one thread is started for each service that the file asks for, named httpd.service:NAME, and no other.", "quantifier": "all accepted files with runtime.per_core = true, all hash orders", "why_tests_cant": "That thread names must not have a NUL is a rule of the standard library which holds for every service name but those that nobody writes into a test.", "anchors": "src/main.rs:227-250, src/config/runtime.rs:5-12"}
{"id": "C199", "title": "A client can read every answer that was written for it, even though the server then closes the connection", "statement": "Every byte the server writes on a connection can be read by the client, also when the server ends the connection afterwards: the way it closes takes nothing away.", "quantifier": "for every service, every stream of segments, every order of sending, reading and closing", "why_tests_cant": "Whether bytes are lost depends on the order of events in two kernels; a test client reads its answers in time. The claim is about all orders.", "anchors": "src/main.rs:85-89,src/serve.rs:12-96"}
{"id": "C200", "title": "The seed of the hash tables changes nothing but the order of header names", "statement": "What happens on a connection is determined by the bytes the client sends and by the service, apart from the order of the header names in the answers: the same requests are delivered, the connection ends in the same way, and each answer has the same first line, the same values in the same order for each name, the same length and the same body.", "quantifier": "for every service that does not itself look at the order of a header table, every stream of bytes, any two segmentations, buffer capacities and iteration orders of the tables, all outcomes of the writes", "why_tests_cant": "The iteration order of a hash table is random and differs between runs; a test sees one order at a time.", "anchors": "src/serve.rs:35-90,src/message.rs:511-549,src/internal/multi_map.rs:207-222"}
{"id": "C201", "title": "A client can tell the answers apart on the wire", "statement": "A client that only sees the bytes of a connection and takes each answer to be a head up to an empty line and as many further bytes as its only Content-Length line says finds at most one list of answers in them. If every answer of the service is a whole answer, it finds them in the order of the requests in every prefix of the bytes, and what is left over is only the beginning of the next one; nothing is left over if the stream took everything. That applies to the hello-world and to the file-system service, whatever bytes the client sends: the j-th body is j greetings, and empty for files.", "quantifier": "for every byte string, segmentation, limits, buffer size, behaviour of the stream on write (portions, failures), and every prefix of the bytes received", "why_tests_cant": "A test looks at a few complete answers. Whether answers could be confused at some cut, after some input or with some buffer size is a question about all of them.", "anchors": "src/serve.rs::serve, src/message.rs::Message::write_to, src/services/helloworld.rs::HelloWorldService::http, src/services/fs.rs::FsService::http"}
{"id": "C202", "title": "The configuration determines which service answers at an address", "statement": "All services of a process ask for their addresses at the same time. Which of them listens where is determined by the configuration and the machine, not by the order in which they happen to ask; no two services are given the same address.", "quantifier": "for every set of services, every meaning of their addresses (one or several socket addresses each), every machine, every interleaving of their attempts and endings", "why_tests_cant": "The outcome depends on the schedule and on the random order of a hash table; a test that passes may have been lucky.", "anchors": "src/main.rs::run, src/main.rs::run_multi_threads, src/main.rs::run_per_core, src/config/mod.rs::Config::autofix"}
{"id": "C203", "title": "The work of the header map does not grow with the number of headers", "statement": "Adding, changing or looking up a header compares its name with at most 36 stored names one by one (beyond that a hash table is used), however many headers there are; so reading the head of a request takes at most a fixed number of comparisons for each byte received. Removing a value from a name compares it with each value of the name at most once.", "quantifier": "for every history of calls on the map, every name and value; for heads, every sequence of bytes and every limits, delivered or refused", "why_tests_cant": "The cost shows only with many names in an unfortunate order; the usual tests have three headers and measure nothing.", "anchors": "src/internal/multi_map.rs::append, src/internal/multi_map.rs::set, src/internal/multi_map.rs::vec_remove_by_value, src/internal/multi_map.rs::vec_find_or_empty, src/message.rs::read_headers"}
{"id": "C204", "title": "A daily (hourly) log file holds the records of one day (hour)", "statement": "With daily (hourly) rotation, each log file, the dated ones and the one being written, holds records of one local day (hour) only: a record of a later day (hour) is never in the file of an earlier one, also when the server was stopped and started in between.", "quantifier": "for all clocks and time zones, all runs of writes and flushes, all buffer sizes and all file contents at the start", "why_tests_cant": "The first record of a new day or hour is written before the file is rotated, so a test must put a record on the boundary and look into the files; a test with a restart must also move the clock between the two runs.", "anchors": "src/logging/rotation_file_appender.rs::RotationFileAppender::writeall, src/logging/rotation_file_appender.rs::RotationFileAppender::rotate, src/logging/rotation_file_appender.rs::RotationFileAppender::new, src/logging/file_appender.rs::FileAppender::reopen"}
{"id": "C205", "title": "Exactly which JSON log lines tell their record", "statement": "The line that the JSON renderer writes for a record is a JSON object telling level, time, place, message and pairs of the record if and only if the record has no key/value pairs and its time, file and message hold no control characters, quotes and backslashes. So of the records about a request to the hello-world service all are told exactly if method, target and headers have no quotes and backslashes and the body is empty or not text.", "quantifier": "every record; every connection to hello-world, whatever the client sends; every well-formed request", "why_tests_cant": "There are infinitely many JSON texts a line could be read as (repeated members, white space, escapes that happen to fit); that none of them tells a record with a quote in it can only be shown by an argument over all of them.", "anchors": "src/logging/json_line_renderer.rs::JsonLineRenderer::render, src/logging/item.rs::Item::from, src/services/helloworld.rs::HelloWorldService::http, src/serve.rs::serve"}
{"id": "C206", "title": "Connections do not affect each other", "statement": "Many connections are open at the same time, and their tasks take turns in any order. What has been written to a client, and the records that were logged about its connection, are at every moment a beginning of what the server does for exactly the bytes that arrived from this client; once the task of the connection has no step left, they are all of it: the same answers and the same records as if this had been the only connection. Leaving out every step of the other connections leaves a possible execution with the same outcome for this connection; two steps of different connections can be made in either order, with the same outcome for every connection; and the number of turns a connection needs is bounded by its own segments, records and answers, whatever the other connections do.", "quantifier": "for all codecs, all numbers of connections and services, all limits, services, write outcomes and log texts of each connection, all bytes in any segments, all ways the streams end, and all interleavings of the tasks and clients", "why_tests_cant": "the number of interleavings grows exponentially with the number of connections and turns, and which of them happens is decided by the scheduler of the runtime and by the network; a test sees one of them each time", "anchors": "src/main.rs::accept_loop, src/main.rs::tls_accept_loop, src/serve.rs::serve, src/logging/dispatcher.rs::Dispatcher::log"}
{"id": "C207", "title": "Whoever connects is in the log", "statement": "Every connection that was accepted has a record in the log of its service with the address of the client: that the connection was made if it is served, and otherwise why it is not. (True of debug builds, but what is said about handshakes goes to the log of the server; false of release builds, in which who does not get through the handshake or sends no proper request leaves no record.)", "quantifier": "for all services with and without TLS, all time limits, all sequences of accepted connections, failed accepts and Ctrl-C, all handshakes and all byte streams on the connections", "why_tests_cant": "which clients connect, and how and when their handshakes end, is up to them; a test shows the records of the clients it makes up, in the build it is made with", "anchors": "src/main.rs::accept_loop, src/main.rs::tls_accept_loop, src/serve.rs::serve, src/logging/item.rs::Item::from"}
{"id": "C208", "title": "From the command line to the answers, with all clients at the same time", "statement": "If the file named on the command line (in a debug build ./httpd.toml) is accepted and the log can be started, the process goes on to serve exactly the services that the file and its included files ask for, each once. Whatever other clients of these services do at the same time, in one runtime or with one runtime per service, each client that takes what it is sent has been sent, at every moment, a beginning of the answers that the grammar of requests gives for exactly the bytes that have arrived from it, for the kind and the limits that the file says; and turns of its own task are enough to send the rest.", "quantifier": "all command lines, TOML values, included files, file systems, hash orders; all numbers of clients of all services, all bytes in any segments, all ways the streams end, all interleavings of tasks and clients", "why_tests_cant": "A test has one configuration, a few clients and the schedules that happen; the claim is for every file, every set of clients and every interleaving of their tasks.", "anchors": "src/main.rs::main, src/main.rs::run, src/main.rs::accept_loop, src/main.rs::tls_accept_loop, src/serve.rs::serve, src/config/mod.rs::Config::load"}
{"id": "C209", "title": "A calendar date and time of day give the time the calendar says", "statement": "luxon::local gives a time exactly if the date is one of the Gregorian calendar, the time of day exists (up to 1999 milliseconds in the last second of a minute) and this local time comes exactly once in the time zone; then it gives the time at which it comes. The fields of a local time that comes once give that time back. Otherwise the error says which of the four conditions failed. endofday and endofhour, which take the local time apart and put it together again, are the beginning of the local day (hour) plus 24 hours (one hour).", "quantifier": "all dates from the year 0 on, all times of day, all time zones in which local times and times belong together as they should", "why_tests_cant": "A test computes a few dates in the time zone of the machine; the claim is for all dates, leap years and centuries included, and every time zone with its jumps.", "anchors": "src/utils/luxon.rs::local, src/utils/luxon.rs::endofday, src/utils/luxon.rs::endofhour"}
{"id": "C210", "title": "When the process refuses to start, it says why", "statement": "If the process gives up with an error before serving, standard error has exactly one line, `Error: ` and a reason, whatever the names in the configuration; the reason is true: the file named on the command line cannot be read or is not a configuration, or its working directory cannot be entered, or one of its patterns is none, or a visible file that it includes cannot be read, is not a service or has a name that is taken (listed, or included before), or a service has a blank name or a root that is empty or does not exist, or a log file that a section asks for cannot be opened. The one named is the one concerned. If none of this is so there is no such line; and of a process that starts its services none of it is so.", "quantifier": "all command lines, TOML values, included files, file systems, hash orders, error texts of the libraries (without line breaks)", "why_tests_cant": "Tests look at a few broken configurations. That the message names a true cause whatever file, include or service is broken, that no cause is passed over, and that no name can break the line, needs a proof over all files.", "anchors": "src/main.rs::main, src/main.rs::load_config, src/config/mod.rs::Config::load, src/config/mod.rs::Config::include, src/config/mod.rs::Config::autofix, src/config/service.rs::Service::autofix, src/config/logging.rs::LoggingConfig::init, src/utils/anyhow.rs::error"}
{"id": "C211", "title": "From the command line to the log files, with all clients at the same time", "statement": "If the file named on the command line is accepted and the log can be started, the log files are those that its sections ask for. Whatever number of clients are connected to the services at the same time: the log holds up no connection, and what a connection logs is at every moment a beginning of its story for exactly the bytes that arrived from its client (the requests delivered and how it ended), and all of it when its task has nothing left to do. A flush of the log can always come to its end by the work of the thread that writes the log alone; when it returns, every log file has, for every connection that had nothing left to do, exactly the lines of its story that are for this file, in order, and a connection of hello-world has put nothing into the file of another service. (Losses when a file rotates: as in C173.)", "quantifier": "all command lines, TOML values, included files, file systems, hash orders; all numbers of clients of all services, all bytes in any segments, all ways the streams end; all interleavings of tasks, clients, the consumer thread and other threads that log or flush; disks without failing calls; records that can be delivered (C61)", "why_tests_cant": "The claim is about every interleaving of unboundedly many connections with the logger, and about every configuration; a test has a few clients and one configuration, and the scheduler decides what it sees.", "anchors": "src/main.rs::accept_loop, src/main.rs::tls_accept_loop, src/serve.rs::serve, src/services/helloworld.rs::handle, src/logging/dispatcher.rs::init, src/logging/consumer.rs::consume, src/config/mod.rs::logging, src/config/logging.rs::init"}
{"id": "C212", "title": "A service that ends is reported when it ends, whatever the others do", "statement": "In multi-thread mode (`per_core` not set) and with a logger that works, at every moment of every execution of the loop of `run_multi_threads` the records it has logged are those of the services joined so far, in that order: one record of level error for a service that returned an error or panicked, none for one that returned `Ok`. Each service is joined at most once and only after it has ended; one that has ended and has not been joined can be joined next, even if all others run forever. Every execution has at most two actions per service and one, and can be continued until nothing can happen any more; then exactly the services that end have been joined, `run_multi_threads` has returned exactly if all of them end, and records and exit status are those that the description of `main` as a function (C156 to C158) gives for some order of the services; conversely every order is that of an execution.", "quantifier": "All lists of services, all results of their `run` (including those that never return), all executions of the join loop, all orders.", "why_tests_cant": "The order in which services end is a matter of timing, and the statement is about all of them and about services that never end; a test sees a few orders of a few services.", "anchors": "src/main.rs::run_multi_threads, src/main.rs::main, src/main.rs::run"}
{"id": "C213", "title": "A dead log ends only the connections that have something to say", "statement": "If the thread that writes the log has died (an appender panicked) and the logger has not been shut down, a log call whose record passes the maximum level panics and ends the task of its connection. In every interleaving of clients, connection tasks and the logger, in which accepting does not fail: a connection is lost only after the thread has died, and only at a record that passes the maximum level; its client has then been sent exactly what `serve` does for its bytes before that record, and nothing is sent to it or logged for it ever after. Every other connection goes on: whatever its task can do next it can do at once, unless that is a log call that passes the maximum level. A connection whose records do not pass the maximum level is never lost, and turns of its own task are enough to send its client everything that `serve` answers to the bytes that have arrived. With a maximum level of info or less that holds for every connection to hello-world and to the file service, in debug and in release builds.", "quantifier": "All clients, all bytes and segmentations, all services and limits, all maximum levels, all programs of other threads, all interleavings with the death of the log thread.", "why_tests_cant": "The log thread dies only when an appender panics; what it ends depends on where each connection is at that moment, on all connections that come later, and on the maximum level.", "anchors": "src/logging/dispatcher.rs::log, src/main.rs::accept_loop, src/main.rs::tls_accept_loop, src/serve.rs::serve"}
{"id": "C214", "title": "Per-core mode reports the services that fail", "statement": "In per-core mode, as in multi-thread mode (C158, C212), the log has one error record for each service that fails - returns an error, panics, or cannot be run at all - and none for the others, by the time the process has ended.", "quantifier": "All numbers of services, all results of their threads, all interleavings of the main thread and the threads of the services.", "why_tests_cant": "What is logged depends on which thread gets the lock first and on failures (no runtime, a panic) that a test cannot bring about at will; the statement is about all orders.", "anchors": "src/main.rs::run_per_core, src/main.rs::run_multi_threads"}
{"id": "C215", "title": "What became of the services is in the log files when the process has ended", "statement": "In multi-thread mode, when the process has ended after all services have, every log file for records of the root (at whatever level it is kept) holds, after what it held before the start, one line for each service that ended with an error or a panic, and for no other service, in the order in which the main thread found out, among the complete lines of the other threads' records for this file.", "quantifier": "All accepted configurations, all numbers of services and all ways in which they end, all programs of the other threads, all schedules of the main thread, the services, the logging threads and the logger's thread, all disks on which no write fails.", "why_tests_cant": "Whether the last lines are on the disk is a race between the logger's last flush and the end of the process; a test that loses it once in a thousand runs says nothing about why, and a test that wins it does not show that it must.", "anchors": "src/main.rs::run_multi_threads, src/main.rs::main, src/logging/dispatcher.rs::ShutdownGuard::drop, src/logging/dispatcher.rs::init, src/logging/file_appender.rs::FileAppender::writeall"}
{"id": "C216", "title": "What the process says in per-core mode is what became of its services", "statement": "In per-core mode standard output has, after the line with the process number, one line `httpd: listening @ ADDRESS, serve as KIND` for each service that gets as far as listening and no other, whatever the other services do; `httpd: shutdown` is there exactly if the exit status is 0, is the last line and comes when all services have ended. If a thread cannot be created the status is 1, standard error has `Error: ` and the reason, and no service has been announced. A service or main thread that panics has its message on standard error; in the latter case the status is 101.", "quantifier": "all lists of services, all results of their threads, all outcomes of every print, all interleavings of the main thread and the threads of the services", "why_tests_cant": "The lines depend on which thread takes the read lock before the main thread stops polling; a test sees the usual interleaving only", "anchors": "src/main.rs::run, src/main.rs::run_per_core, src/main.rs::main, src/config/service.rs::Service::kind"}
{"id": "C217", "title": "What the services log is in the log files when the process has ended, in per-core mode", "statement": "In per-core mode, when the process has ended, every log file holds, after what it held before the start, the lines of all records that the tasks of the services and of their connections logged for it, per task in the order of the calls - among them the errors with which services ended -, and nothing else.", "quantifier": "All accepted configurations, all numbers of services and tasks and all that they log, all schedules of the main thread, the threads of the services and the logger's thread, all disks on which no write fails.", "why_tests_cant": "Whether the last lines reach the disk depends on a race between the end of the process and the last flush of the logger's thread, which a test hits rarely; and it is about every configuration and every schedule", "anchors": "src/main.rs::run_per_core, src/main.rs::main, src/logging/dispatcher.rs::ShutdownGuard::drop, src/logging/dispatcher.rs::init, src/logging/file_appender.rs::FileAppender"}
{"id": "C218", "title": "No client keeps a worker thread to itself", "statement": "Every turn of a task on a worker thread ends, after a number of rounds of the loop for a body that does not depend on how much the client sends; so whatever the clients do, every task - of a connection or of a service - that has something to do gets a turn as soon as another has ended, and no client, over TCP or TLS, can stop the others, other services of the process, or the reaction to Ctrl-C.", "quantifier": "every number of workers (per-core mode: one) and of services, every service and configuration, TCP and TLS, every byte sequence in any segments, every end of the streams, every interleaving of the tasks", "why_tests_cant": "A client that announces a body and leaves is rarely tested over TLS, and the difference between TCP and TLS (a read after the close is free of the scheduler's budget) does not show as long as other workers are idle; that no continuation at all gives another task a turn is a statement about all executions.", "anchors": "src/message.rs::read_const_length_body_impl, src/serve.rs::serve, src/main.rs::tls_accept_loop, src/main.rs::accept_loop, src/main.rs::run_multi_threads, src/main.rs::run_per_core"}
{"id": "C219", "title": "The process ends after its services have ended", "statement": "In multi-thread mode, when every service has ended - after Ctrl-C, or because each has failed - the process says \"httpd: shutdown\" and ends, as soon as the turns of the connection tasks that are going on at that moment are over; what clients do, over TCP or TLS, cannot keep it from ending.", "quantifier": "every number of workers and of services, every service and configuration, TCP and TLS, every byte sequence in any segments, every end of the streams, every interleaving of the tasks with the main thread", "why_tests_cant": "A test that stops the server does so with no client in the middle of a body over TLS; that the process ends in no continuation is a statement about all executions, and that it does end otherwise must hold for every set of tasks that are running when the runtime is dropped.", "anchors": "src/main.rs::run_multi_threads, src/main.rs::main, src/main.rs::tls_accept_loop, src/main.rs::accept_loop, src/message.rs::read_const_length_body_impl"}
{"id": "C220", "title": "Every client is answered in the end", "statement": "In every execution without end in which the task of a connection is not left out for ever (weak fairness: if it could always go on, it is given a turn), whatever the other connections, their clients and their tasks do: for every moment there is a later one from which on the client has been sent everything that the server answers to the bytes that had arrived from it, in particular the answers to all complete requests; its records have been handed to the log; and if nothing more arrives, nothing else is sent or logged. Any execution so far can be continued into one that is fair in this sense.", "quantifier": "all codecs, all numbers of connections and services, all limits, services and write outcomes, all bytes in any segments, all ways the streams end, all executions without end that are fair to the connection in question (and to no other); from all command lines and configuration files that are accepted", "why_tests_cant": "Tests observe finite executions and cannot tell 'not yet' from 'never'; the claim is about all infinite interleavings with any behaviour of the other clients, including clients that send for ever.", "anchors": "src/serve.rs::serve, src/main.rs::accept_loop, src/main.rs::tls_accept_loop, src/main.rs::run_multi_threads, src/services/helloworld.rs"}
{"id": "C221", "title": "What is logged is written in the end", "statement": "In every execution without end in which the consumer thread of the logger is not left out for ever and does not panic: every record sent by any moment is handed to the appenders at a later one, in the order of sending, however much the threads go on logging; every call of flush returns, if the calling thread is not left out for ever once it can go on; and the drop of the guard returns, if the main thread is not left out. Together with the connections: if moreover the task of a connection is not left out and the process does not end, then from some moment on the client has been sent everything that serve answers to what had arrived from it, and all records serve makes about it, as far as the level lets them pass, have been handed to the appenders in their order, whatever the other connections and threads do. From the command line: if the file named there is accepted and the log can be started, the process serves its services, and in such an execution each client of each service is from some moment on sent all that the protocol has for the bytes that had arrived from it, under the kind of service and the limits that the file says, and every log destination of the file is handed the records of the connection that are for it, in their order.", "quantifier": "all executions without end of any number of logging threads, connections and the consumer, with weak fairness to the consumer and to the thread or task spoken of; all record types, levels, services and codecs; all command lines, TOML values, included files and file systems", "why_tests_cant": "Starvation is a property of infinite executions; a test sees finitely many steps of one scheduling, in which a record that waits has merely not been written yet", "anchors": "src/logging/dispatcher.rs::log, src/logging/dispatcher.rs::flush, src/logging/dispatcher.rs::init, src/logging/dispatcher.rs::drop, src/serve.rs::serve"}
{"id": "C222", "title": "What is logged is in the log file in the end", "statement": "A record that has been logged is in the log file of every appender that wants it after some time, without anything else having to happen: in every execution without end in which nobody is left out for ever, the thread that writes the log does not panic and no write of the system fails, every record sent by any moment is in the file from some later moment on.", "quantifier": "all executions without end of connections, logging threads and consumer in which no part of the process is starved; all file appenders, buffer sizes, files and records", "why_tests_cant": "The negation is about all later moments of an execution without end: a test can only see that the record is not there yet. And the bound on what is missing must hold for every sequence of record lengths relative to the buffer", "anchors": "src/logging/dispatcher.rs::init, src/logging/file_appender.rs::writeall, src/logging/file_appender.rs::flush, src/logging/file_appender.rs::new, src/logging/consumer.rs::consume"}
{"id": "C223", "title": "Everybody who connects is accepted and answered in the end", "statement": "With a limit on open files and without TLS: if the clients that never let their connection end (they stop inside a request, keep an idle connection open, or announce more of a body than they send) are fewer than there are file descriptors for connections, then every client that connects is accepted in the end, is sent all the answers to what it has sent, and its descriptor is given back when its connection is over. With as many such clients as descriptors this need not be so. If the service is one of a configuration file named on the command line, the answers are those for the kind of service and the limits that the file says.", "quantifier": "every limit on open files, every number of clients, everything they send, before or after they are accepted, and every way to leave, every execution without end in which neither the accept loop nor a task is left out for ever", "why_tests_cant": "It is about executions without end with any number of clients that compete for descriptors; a test sees a finite beginning of one schedule.", "anchors": "src/main.rs::accept_loop, src/serve.rs::serve"}
{"id": "C224", "title": "With TLS everybody who connects is accepted in the end, and answered or dropped in time", "statement": "With TLS and a limit on open files: if the clients past the handshake that never let their connection end are fewer than there are file descriptors for connections, then every client that connects is accepted in the end. If its handshake succeeds within the time limit, it is let in within the time limit, is sent all the answers to what it has sent, and its descriptor is given back when its connection is over; otherwise it is dropped within the time limit and is sent nothing. Clients that connect and do nothing, however many, prevent none of this. With as many clients that do the handshake and then send nothing as there are descriptors, one more need not be accepted. If the service is one of a configuration file named on the command line, the time limit is the service's own `tcp.tls.timeout`, else that of the main file, else 15 seconds, and the answers are those for the kind of service and the limits that the file says.", "quantifier": "every limit on open files, every time limit, every number of clients, every way their handshakes go, everything they send and every way to leave, every execution without end in which time passes without bound and no task is left out for ever", "why_tests_cant": "It is about executions without end with any number of clients that compete for descriptors, and about time; a test sees a finite beginning of one schedule.", "anchors": "src/main.rs::accept_loop, src/serve.rs::serve"}
{"id": "C225", "title": "The clients of one service do not keep those of another from being accepted", "statement": "In a process with several services and a limit on open files, in which every connection that is accepted ends at some moment: whoever connects to one of the services is accepted in the end, whatever the clients of the other services do.", "quantifier": "every limit on open files, every number of services and clients, every execution without end in which no accept loop is left out for ever", "why_tests_cant": "A client that is starved waits for ever, in an execution in which all others are served; a test sees a finite part of one schedule, with a limit on descriptors that is hard to reach.", "anchors": "src/main.rs::accept_loop, src/main.rs::run_multi_threads, src/main.rs::run_per_core"}
{"id": "C226", "title": "What the process says in multi-thread mode is what became of its services, at every moment", "statement": "In multi-thread mode standard output has, after the line with the process number, one line `httpd: listening @ ADDRESS, serve as KIND` for each service that gets as far as listening and no other, in whatever order; a service can say it at once whatever the others do, and does not end before it has. `httpd: shutdown` is there only if the exit status is or will be 0, is the last line, and comes when all services have ended. Standard error has one message for each service that has panicked and no other, in the order in which they did, and at most one more, of the main thread. If the runtime cannot be built the status is 1, nothing has been said, and standard error has `Error: ` and the reason; if the main thread panics the status is 101. Every execution comes to an end, and then lines, records and status are those of the description of the process as a function (C194, C195, C197).", "quantifier": "all lists of services, all results of their tasks, all outcomes of every print and of building the runtime, all interleavings of the tasks with the main thread", "why_tests_cant": "which service prints first, and what is on the two streams when, depends on the schedule of the worker threads; a test sees one schedule", "anchors": "src/main.rs::run, src/main.rs::run_multi_threads, src/main.rs::main"}
{"id": "C227", "title": "A client that does not read its answers holds up nobody but itself; one that reads, however slowly, gets them all", "statement": "Let the kernel keep at most a certain number of bytes for a client that has not taken them. Then, whatever the clients take and when, what a client has taken is at every moment a beginning of what `serve` answers to its bytes; the server never has more than one answer on its hands for it, so it does not go on with the requests of a client that does not read; leaving out the other connections changes nothing for it; and a client that goes on taking, however slowly, has from some moment on taken all the answers to what had arrived from it, whatever the others send, take or leave, for services given in code or asked for by the file named on the command line.", "quantifier": "For every number of connections, every setup of theirs, every size of the kernel's room, every interleaving of clients, tasks and kernel, every execution without end in which the task of the connection is not left out and its client goes on taking; every set of clients that stop reading.", "why_tests_cant": "That one slow reader does not stop the others, and does not make the server hold ever more answers for it, shows only with particular sizes of socket buffers, particular clients and at particular moments; tests use clients that read at once.", "anchors": "src/serve.rs::serve, src/message.rs::write_to, src/main.rs::run"}
{"id": "C228", "title": "Failures of the log are reported, and the log goes on", "statement": "When a write or a flush of an appender fails, or a log file cannot be rotated, that is reported on standard error, with one line for each failed call in the order of the calls, and the thread that writes the log goes on with the other appenders, the next record and the next flush as if there had been nothing to report.", "quantifier": "all configurations of files, rotating files and consoles, all sequences of calls of appenders, all patterns of failing writes, renames and opens, all patterns of failing writes to standard error, all interleavings of the threads that log", "why_tests_cant": "needs every combination of failing disk, console and standard error at every call; tests run with a standard error that works", "anchors": "src/logging/consumer.rs::consume_when_single_renderer, src/logging/consumer.rs::comsume, src/logging/consumer.rs::flush, src/logging/rotation_file_appender.rs::rotate"}
{"id": "C229", "title": "Flushes are answered in the order in which they were asked for", "statement": "Flush requests of all threads are answered one after another in the order in which the calls were made, each at most once, also if the logging thread panics in the end; a call of flush returns only to the thread that made it, only after its own request was answered, and once.", "quantifier": "every set of threads, every program of log and flush calls, every interleaving, with or without a panic of the logging thread", "why_tests_cant": "Which thread asks first, and where the logging thread is at that moment, depends on scheduling; a test sees a few of the interleavings.", "anchors": "src/logging/dispatcher.rs::flush, src/logging/dispatcher.rs::init"}
{"id": "C230", "title": "Compressed bodies round-trip with the writers of flate2 and brotli", "statement": "If each of the six writers of flate2 and brotli that are used does what it is documented to do, ended in its own way (finish; flush and into_inner; close and into_inner), then for each type of compression write_all of any pieces to a compressing body and end succeed and give an encoding in the format asked for, and write_all of that to a body that decompresses the same format, and end, succeed and give the pieces back.", "quantifier": "all types of compression, levels, bodies, pieces and cuts, and all writers that keep to their contract, including ones that take only part of a write", "why_tests_cant": "The unit tests compress one text per format in one write and print the result; they do not cut it and assert nothing.", "anchors": "src/compression.rs::_expose, src/compression.rs::append, src/message.rs::compression, src/message.rs::decompression, src/message.rs::end"}
{"id": "C231", "title": "Ending a compressed body reports failure", "statement": "end() on a body returns Ok only if every step of ending its writer was successful.", "quantifier": "all states of all six kinds of writers", "why_tests_cant": "Writers on top of a buffer in memory hardly ever fail; a failure while the end of the stream is written cannot be provoked from a test.", "anchors": "src/compression.rs::_expose, src/message.rs::end"}
{"id": "C232", "title": "A body is compressed with the format and the level asked for", "statement": "compression(type, level) compresses in the format asked for with the level asked for, or the highest if that is too high.", "quantifier": "all types and all u32 levels", "why_tests_cant": "A test tries a few small levels; the wrong ones are above 2147483647.", "anchors": "src/message.rs::compression, src/message.rs::decompression"}
{"id": "C233", "title": "Over TLS the client can decrypt exactly the answers", "statement": "On a connection over TLS what the client can decrypt of the bytes on the wire are exactly the bytes of its answers, in the order of the requests: nothing of an answer whose writing succeeded is left behind in the TLS layer, nothing is sent twice or out of order, and an answer whose writing failed is a beginning of it. If TCP goes on taking bytes, in whatever portions and after whatever waiting, every answer arrives completely. Every record has between 1 and 16384 bytes of content.", "quantifier": "for every service, codec, limits, stream of bytes from the client, size of the write buffer, encryption whose records are self-delimiting, and behaviour of TCP (portions, lack of room, failure, standstill)", "why_tests_cant": "The TLS layer keeps records back when TCP has no room at once, which a test on a fast network does not see; the claim is about every interleaving of room and writes.", "anchors": "src/main.rs::tls_accept_loop, src/serve.rs::serve, src/message.rs::Message::write_to"}
{"id": "C234", "title": "A client over TLS can tell the end of a connection from a cut", "statement": "When the server ends a connection over TLS it says so before (the closure alert that RFC 8446 section 6.1 and RFC 9112 section 9.8 ask for), so that a client can tell the end from an attack that cuts the connection off.", "quantifier": "for every service, stream of bytes from the client and way in which the connection ends", "why_tests_cant": "Clients and test tools mostly ignore a missing alert; whether some path sends one is a question about all ways in which a connection can end.", "anchors": "src/main.rs::tls_accept_loop, src/serve.rs::serve"}
{"id": "C235", "title": "What a TLS connection holds back for a slow client is bounded", "statement": "For a client that does not read, a connection over TLS holds back at most what fits into the write buffer and 64 KiB and the overhead of four records, whatever it has to answer.", "quantifier": "for every service, stream of bytes, size of the buffer, behaviour of TCP, and every bound on how much longer a record is than its content", "why_tests_cant": "The bound depends on the order in which TCP has room and answers are written; a test measures one run.", "anchors": "src/main.rs::tls_accept_loop, src/serve.rs::serve, src/message.rs::Message::write_to"}
{"id": "C236", "title": "Over TLS the server reads a beginning of what the client said", "statement": "Whatever bytes arrive at a connection over TLS in place of those that the client sent - changed, left out, repeated, reordered, broken off - what the server reads from the stream is a beginning of what the client said, and it takes the stream to have ended only if the client itself said goodbye and everything it said before has been read. If something that does not open stands in the place of a record, this is a read error and not an end. So the requests handed to the service, with their bodies, and the answers to them are the first ones of those of the connection on which everything arrives.", "quantifier": "for every service, codec, limits, records of the client, bytes that arrive, portions they come in, end of the TCP stream, size of the read buffer, and every encryption of which only the client can make records that open, each in its place", "why_tests_cant": "An attacker on the network can do anything to the bytes; the claim is about all byte strings that can arrive in the place of those of the client, and about every way TCP cuts them.", "anchors": "src/main.rs::tls_accept_loop, src/serve.rs::serve, src/message.rs::Message::read_headers, src/message.rs::Message::read_const_length_body"}
{"id": "C237", "title": "Over TLS everything that arrives in whole records is read, however it is cut", "statement": "If what arrives on a connection over TLS is what the client sent, or a beginning of it, the server reads exactly what the records carry that have arrived in whole, up to the goodbye of the client; a connection that ends without the goodbye is a read error for it and not an end. If everything arrives, the connection does what a connection without TLS does on which the client says the same, however its words are cut into records and these into TCP segments.", "quantifier": "for every service, codec, limits, list of records (of any length, empty ones included), portions in which their bytes arrive, end of the TCP stream and size of the read buffer", "why_tests_cant": "Cutting words into records and records into segments can be done in too many ways to test; the claim is that none of them matters.", "anchors": "src/main.rs::tls_accept_loop, src/serve.rs::serve"}
{"id": "C238", "title": "Requests over TLS cannot be changed or cut short on their way", "statement": "A client sends requests one after the other over TLS. Whatever happens to the bytes on their way, the requests handed to the service are the first ones of those that the client sent, with method, target, version and headers as sent, and what the client can decrypt of what comes back are the complete answers to exactly these, in order. Nothing that happens on the way can make the connection spin; only a client that itself says goodbye inside a body can.", "quantifier": "for every service that keeps the connection open, well-formed requests, cutting into records, bytes that arrive in their place, portions, size of the buffers and behaviour of a TCP that goes on taking answers", "why_tests_cant": "Without TLS a request cut inside a header line can be taken for a whole one and a request cut inside its body makes the task spin; that no manipulation of the bytes brings this about over TLS is a claim about all of them.", "anchors": "src/main.rs::tls_accept_loop, src/serve.rs::serve, src/message.rs::Message::read_headers, src/message.rs::Message::write_to"}
{"id": "C239", "title": "What a command line means", "statement": "A release build whose command line is empty, or one argument that is not taken for a flag, or an argument after --, runs with the file that is named there (with none, the default configuration). If the first argument, or the second one after a file, asks for help (--help, or -h with anything after it), the process ends with status 0 and does nothing else. Every other command line - a second file, an unknown flag, a name that is not UTF-8 - is refused with status 2, and nothing is read, bound or logged.", "quantifier": "for every list of byte strings as arguments, every machine, environment of the services and state of standard output", "why_tests_cant": "There are infinitely many command lines; tests try a few, and the interesting ones (--, names with hyphens, bytes that are no text, clusters of flags) are rarely among them.", "anchors": "src/main.rs::Args, src/main.rs::load_config, src/main.rs::main"}
{"id": "C240", "title": "A terminal shows every part of a log line in its colour", "statement": "When coloured lines are written one after another to a terminal that understands the sequences for setting the colour of the text, it shows the level, the message and the values of every record in the colour configured for the level of that very record; the time, the file, the line number and the keys in the colours configured for them; and everything else, including whatever is written after the lines, in its default colour. A part for which no colour (or the colour 0,0,1) is configured is shown in the default colour. With the default scheme the level can be told from the colour of the first character of the line.", "quantifier": "every colour scheme, every list of records without escape characters, and every text written afterwards", "why_tests_cant": "Every combination of configured colours, levels and following lines; a colour that leaks into the next line or two levels with their colours exchanged look right in most samples.", "anchors": "src/logging/color.rs::LevelColors::get, src/logging/color.rs::ColorScheme, src/logging/colorful_line_renderer.rs::with_color, src/logging/colorful_line_renderer.rs::ColorfulLineRenderer::render"}
{"id": "C241", "title": "On the console, what a client sends cannot be taken for records of the server", "statement": "Whatever a client sends to the hello-world service, a terminal to which the records about its connection are written shows each of them whole, every part in the colour that belongs to it, and shows whatever is written afterwards as if it stood alone; so a line that is shown in the colours of a record was logged by the server.", "quantifier": "every connection and every byte sequence of the client, every colour scheme, every text written afterwards", "why_tests_cant": "All byte sequences; the bodies that break it are those which contain complete colour sequences.", "anchors": "src/services/helloworld.rs::HelloWorldService::http, src/logging/colorful_line_renderer.rs::with_color, src/logging/colorful_line_renderer.rs::ColorfulLineRenderer::render"}
{"id": "C242", "title": "Exactly which connections go round for ever", "statement": "A connection goes round for ever in the loop for a body only if the client has closed it and everything that it sent ends inside the body of a request: complete requests, one after the other, that have been handed to the service, a complete head, and then fewer bytes than it announces. With a service that keeps its connections open every such client brings it about, after exactly the complete requests. Over TLS, whatever happens to the bytes on their way, a worker thread is kept only by a client that itself said goodbye in such a place; nobody on the network can bring it about for another.", "quantifier": "for every service, codec, limits, byte sequence, segmentation and end of the stream; over TLS for every number of workers, of services and of clients, every execution of the runtime, all bytes that arrive in place of those of the clients, and every encryption of which only the client can make records that open", "why_tests_cant": "That all other inputs - for all services, on all bytes - lead to an end of the connection or to waiting is a statement about infinitely many byte sequences; a test that does not hang within its time-out does not show it.", "anchors": "src/serve.rs::serve, src/message.rs::read_const_length_body_impl, src/message.rs::Message::read_const_length_body, src/main.rs::tls_accept_loop"}
{"id": "C243", "title": "From the command line to what a client over TLS decrypts", "statement": "Started with a file that is accepted, the process serves the services that the file asks for and no other. Whatever happens on the way to the bytes of a client over TLS of one of them, as long as TCP takes the answers, what the client can decrypt are complete answers: the first ones of those that the grammar gives for what the client itself said, for the kind of service and the limits that the file says. If what the client sent arrives, however it is cut, these are all of them.", "quantifier": "for every accepted configuration file and machine, every service of it, everything a client can say, every cutting into records and portions, all bytes that arrive in place of those sent, every end of the TCP stream, every behaviour of a TCP that goes on taking answers, and every encryption of which only the client can make records that open", "why_tests_cant": "The claim joins the command line, the configuration file, the request grammar, the services and both directions of TLS, for all files, all inputs and all manipulations of them; a test can only look at single points of that.", "anchors": "src/main.rs::main, src/main.rs::run, src/main.rs::tls_accept_loop, src/serve.rs::serve, src/message.rs::Message::read_headers, src/message.rs::Message::write_to, src/config/mod.rs::Config::load"}
{"id": "C244", "title": "An answer depends on the version of the request and on nothing else in it", "statement": "For the hello-world and the file-system service: two clients whose complete requests have the same versions, in order, and that take what they are sent get the same bytes, whatever the methods, targets, headers and bodies of their requests, whatever follows the last complete request, in whatever pieces they send it and however their connections end, and whatever the limits, addresses and TLS settings of the two services are.", "quantifier": "every two byte strings, segmentations and ends of connections, every two services of one of these kinds, all limits, every environment", "why_tests_cant": "It compares every pair of infinitely many streams of requests; a test compares the few pairs it thought of, and a header or method that makes a difference is found only if a test sends it.", "anchors": "src/services/helloworld.rs::HelloWorldService::http, src/services/fs.rs::FsService::http, src/serve.rs::serve, src/message.rs::Message::write_to"}
