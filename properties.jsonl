{"id": "C01", "title": "HPACK integers round-trip", "statement": "For every prefix width 1..8, every leading-bit pattern and every value that fits the decoder's five-octet limit, decoding the octets the encoder wrote returns that value and consumes exactly those octets, whatever bytes follow. Values above the limit are rejected with an error, never decoded to a different number.", "quantifier": "all prefix sizes 1..8, all leading bits, all usize values, all trailing bytes", "why_tests_cant": "The value space is unbounded and the interesting points (mask, mask+127, 2^7k boundaries) differ for every prefix; a test samples a few.", "anchors": ["src/http/http2/hpack/encoder.rs: Encoder::encode_integer_into", "src/http/http2/hpack/decoder.rs: Decoder::decode_integer"]}
{"id": "C02", "title": "HPACK integer decoding reads at most five octets and never past what it reports", "statement": "Whenever an integer is decoded, 1..5 octets are consumed, the consumed octets lie inside the buffer, and the result does not change if bytes after the consumed octets change. A buffer that ends before the integer does is always an error.", "quantifier": "all byte buffers, all prefix sizes", "why_tests_cant": "Quantifies over all malformed and truncated inputs.", "anchors": ["src/http/http2/hpack/decoder.rs: Decoder::decode_integer"]}
{"id": "C03", "title": "Huffman coding round-trips", "statement": "For every byte string s, Huffman-decoding the Huffman encoding of s succeeds and returns s.", "quantifier": "all byte strings of every length", "why_tests_cant": "Depends on all 256 codes being mutually prefix free, on the bit accumulator never losing bits for any alignment, and on padding being recognisable for every final alignment.", "anchors": ["src/http/http2/hpack/huffman.rs: HuffmanEncoder::encode, HuffmanDecoder::decode, HUFFMAN_CODE_ARRAY"]}
{"id": "C04", "title": "Huffman decoder accepts only canonical encodings", "statement": "If a byte string decodes successfully, it is exactly the encoding of the returned string: at most seven padding bits, all ones, no EOS symbol inside.", "quantifier": "all byte strings offered to the decoder", "why_tests_cant": "A universal statement over adversarial inputs.", "anchors": ["src/http/http2/hpack/huffman.rs: HuffmanDecoder::decode, HUFFMAN_CODE_MAP"]}
{"id": "C05", "title": "Lower-casing Huffman encoder equals encoding of the lower-cased string", "statement": "encode_lower(s) decodes to s with exactly the bytes A-Z replaced by a-z.", "quantifier": "all byte strings", "why_tests_cant": "All strings, all alignments.", "anchors": ["src/http/http2/hpack/huffman.rs: HuffmanEncoder::encode_lower"]}
{"id": "C06", "title": "HPACK dynamic table never exceeds its limit, accounts its size exactly and never panics", "statement": "After any history of insertions and maximum-size changes the reported size equals the sum over present entries of name length + value length + 32, is at most the current maximum, and the eviction loop never reaches its panic.", "quantifier": "all histories of add_header / set_max_table_size, all names, values and limits", "why_tests_cant": "Invariant over unbounded operation sequences.", "anchors": ["src/http/http2/hpack/header_index.rs: HeaderIndex::add_header, set_max_table_size, consolidate_table, get_size"]}
{"id": "C07", "title": "HPACK dynamic table evicts oldest first and only as much as needed", "statement": "After an insertion or a limit change the table holds the longest run of newest entries that fits the limit; no entry is dropped while it would still fit and no newer entry is dropped before an older one.", "quantifier": "all table states, entries and limits", "why_tests_cant": "Unbounded table contents and entry sizes.", "anchors": ["src/http/http2/hpack/header_index.rs: consolidate_table"]}
{"id": "C08", "title": "HPACK index space is static table then dynamic table newest first", "statement": "Index 0 and indices past the end are rejected; 1..61 give the RFC 7541 Appendix A entry; 61+k gives the k-th most recently added surviving entry.", "quantifier": "all indices and table states", "why_tests_cant": "All table states; the static part must match all 61 RFC entries.", "anchors": ["src/http/http2/hpack/header_index.rs: HeaderIndex::get_from_index, STATIC_TABLE_RAW"]}
{"id": "C09", "title": "HPACK header lists survive encode/decode over a whole connection", "statement": "For a decoder whose table started equal to the encoder's, decoding each header block in order returns the header list that was encoded: same length, order and values, names lower-cased; the two dynamic tables stay in step after every block.", "quantifier": "all sequences of header blocks of any length, all names and values", "why_tests_cant": "The encoder's choice for a header depends on the entire history through the dynamic table.", "anchors": ["src/http/http2/hpack/encoder.rs: Encoder::encode, encode_header_into", "src/http/http2/hpack/decoder.rs: Decoder::decode", "src/http/http2/hpack/header_index.rs: find_header"]}
{"id": "C10", "title": "HPACK decoding terminates on every input", "statement": "Decoder::decode returns Ok or Err after at most as many steps as there are input bytes.", "quantifier": "all byte strings and table states", "why_tests_cant": "Termination on every adversarial input cannot be sampled.", "anchors": ["src/http/http2/hpack/decoder.rs: Decoder::decode_with_cb"]}
{"id": "C11", "title": "HPACK decoding is compositional", "statement": "Decoding a concatenation of header blocks gives the concatenation of the header lists obtained by decoding the blocks one after the other with the same decoder, and leaves the same table.", "quantifier": "all byte strings that decode successfully, all following bytes, all table states", "why_tests_cant": "All splits of all inputs.", "anchors": ["src/http/http2/hpack/decoder.rs: Decoder::decode_with_cb"]}
{"id": "C12", "title": "HPACK decoder never panics and keeps its table invariant on hostile input", "statement": "Whatever bytes are decoded, each decoding step either reports an error or yields a header and the decoder's table still satisfies the size invariant; no step panics.", "quantifier": "all byte strings, all table states satisfying the invariant", "why_tests_cant": "All inputs.", "anchors": ["src/http/http2/hpack/decoder.rs: decode_literal, decode_indexed, decode_string", "src/http/http2/hpack/header_index.rs"]}
{"id": "C13", "title": "HTTP/2 frame headers round-trip", "statement": "Parsing the nine bytes written for a frame header returns the same length, kind, flags and stream id, and leaves the following bytes unread, for every length below 2^24, registered kind, flag set and 31-bit stream id.", "quantifier": "all frame headers in range, all trailing bytes", "why_tests_cant": "2^24 lengths x 2^31 ids x kinds x flags.", "anchors": ["src/http/http2/frame/frame.rs: FrameHeader::encode, FrameHeader::parse", "src/http/http2/frame/kind.rs", "src/http/http2/frame/flag.rs", "src/http/http2/frame/mod.rs: StreamIdentifier"]}
{"id": "C14", "title": "HTTP/2 frame header parsing is strict about length and ignores the reserved bit", "statement": "Fewer than nine bytes is Short; otherwise the result depends on the nine bytes only, the length is below 2^24, the stream id is below 2^31 and does not depend on the reserved bit; unknown flag bits do not make an otherwise valid frame unparseable.", "quantifier": "all byte strings", "why_tests_cant": "All nine-byte inputs.", "anchors": ["src/http/http2/frame/frame.rs: FrameHeader::parse", "src/http/http2/frame/mod.rs: read_u24, read_u31", "src/http/http2/frame/flag.rs: Flag::new"]}
{"id": "C15", "title": "PING, GOAWAY, WINDOW_UPDATE and RST_STREAM frames round-trip", "statement": "For every frame value with in-range fields, parsing the frame header and payload from the written bytes returns an equal frame, the written length field equals the payload length and the returned size equals the number of bytes written.", "quantifier": "all payloads, stream ids, reasons, increments and debug data", "why_tests_cant": "Field ranges are 2^31/2^32 and debug data is unbounded.", "anchors": ["src/http/http2/frame/ping.rs", "src/http/http2/frame/go_away.rs", "src/http/http2/frame/window_update.rs", "src/http/http2/frame/reset.rs", "src/http/http2/frame/reason.rs"]}
{"id": "C16", "title": "PRIORITY frames round-trip", "statement": "For every priority frame, the bytes written are a frame header announcing the payload length followed by the payload, and parsing them returns the same stream, dependency, weight and exclusive flag.", "quantifier": "all stream ids, dependencies, weights, exclusive flags", "why_tests_cant": "Universal over all field values.", "anchors": ["src/http/http2/frame/priority.rs: Priority::encode, Priority::parse, StreamDependency"]}
{"id": "C17", "title": "SETTINGS frames round-trip", "statement": "For every settings value with legal fields, parsing the written frame returns equal settings; an ACK parses as an ACK; length field and returned size match the bytes written.", "quantifier": "all combinations of present/absent settings and all their values", "why_tests_cant": "2^7 presence combinations x 2^32 values each.", "anchors": ["src/http/http2/frame/settings.rs: Settings::encode, Settings::parse, payload_len"]}
{"id": "C18", "title": "SETTINGS parsing enforces legal values and last-one-wins", "statement": "A payload is accepted only if its length is a multiple of six and every known parameter is legal (push and connect in {0,1}, window at most 2^31-1, frame size in 2^14..2^24-1); each field of the result is the last value given for it, absent if never given; unknown identifiers change nothing; an ACK with payload or a non-zero stream is rejected.", "quantifier": "all payload byte strings", "why_tests_cant": "Unbounded payloads with repeated and unknown identifiers.", "anchors": ["src/http/http2/frame/settings.rs: Settings::parse_setting, Settings::parse"]}
{"id": "C19", "title": "DATA splitting preserves the body, the frame size limit and END_STREAM", "statement": "Encoding a DATA frame of any size with any positive maximum frame size writes a sequence of well-formed DATA frames on the same stream whose payloads concatenate to the body, each at most the maximum, with END_STREAM exactly on the last one and only if it was set.", "quantifier": "all bodies, all maximum frame sizes from 1, all stream ids and flag sets", "why_tests_cant": "All (size, limit) pairs, including exact multiples.", "anchors": ["src/http/http2/frame/data.rs: Data::encode"]}
{"id": "C20", "title": "Padding is removed from received frames", "statement": "A padded DATA frame delivers exactly the application bytes, without the pad-length byte and without the padding; padding longer than the payload is rejected.", "quantifier": "all payloads and pad lengths", "why_tests_cant": "All payload/padding combinations.", "anchors": ["src/http/http2/frame/frame.rs: Frame::trim_padding, Frame::parse"]}
{"id": "C21", "title": "HEADERS/CONTINUATION splitting keeps the block intact", "statement": "Encoding a header block writes one HEADERS frame followed by CONTINUATION frames on the same stream; END_HEADERS is on the last frame only; the fragments concatenate to the block produced by encoding all fields in order; END_STREAM, if requested, is on the HEADERS frame; no fragment exceeds the maximum frame size.", "quantifier": "all header maps, encoder states and maximum frame sizes", "why_tests_cant": "Split points depend on every field length and on the encoder history.", "anchors": ["src/http/http2/frame/headers.rs: HeaderBlock::encode, Headers::encode"]}
{"id": "C22", "title": "HEADERS frames round-trip through a connection", "statement": "Parsing an encoded HEADERS frame with a decoder in step with the encoder returns the same header fields (names lower-cased) and pseudo-header parts.", "quantifier": "all header maps and parts, all synchronised table states", "why_tests_cant": "Depends on whole connection history.", "anchors": ["src/http/http2/frame/headers.rs: Headers::encode, Headers::parse, Parts::encode_header"]}
{"id": "C23", "title": "Received header lists respect the advertised maximum size", "statement": "Headers::parse succeeds only if the sum over all decoded fields of name length + value length + 32 is at most the given maximum.", "quantifier": "all payloads, table states and limits", "why_tests_cant": "All inputs.", "anchors": ["src/http/http2/frame/headers.rs: Headers::parse"]}
{"id": "C24", "title": "Stream identifiers handed out are distinct, increasing and keep their parity", "statement": "Successive next_id calls from an initial identifier return that identifier plus 0, 2, 4, ... : strictly increasing, never repeated, all of one parity, up to the 32-bit limit.", "quantifier": "all starting identifiers and call counts", "why_tests_cant": "Unbounded call sequences.", "anchors": ["src/http/http2/frame/mod.rs: StreamIdentifier::next_id"]}
{"id": "C25", "title": "A byte stream of control frames can be cut back into the frames that were written", "statement": "Writing any sequence of PING, GOAWAY, WINDOW_UPDATE, RST_STREAM and SETTINGS frames back to back and then repeatedly reading a header and that many payload bytes returns exactly the sequence.", "quantifier": "all frame sequences of any length", "why_tests_cant": "Unbounded sequences; one wrong length field desynchronises everything after it.", "anchors": ["src/http/http2/frame/frame.rs: Frame::encode, Frame::parse, FrameHeader"]}
{"id": "C26", "title": "WebSocket frame headers round-trip", "statement": "For every header the writer accepts (and FIN set for control opcodes), reading the written bytes gives back flags, opcode, mask and length and leaves the rest unread.", "quantifier": "all flags, opcodes 0..15, masks and 64-bit lengths, all trailing bytes", "why_tests_cant": "2^64 lengths with three encodings.", "anchors": ["src/ws/frame_header.rs: write_header, read_header"]}
{"id": "C27", "title": "WebSocket header reading accepts only minimal, legal headers", "statement": "If a header is read successfully its length uses the shortest encoding, control frames have length below 126 and FIN set, and re-writing the header gives exactly the bytes consumed.", "quantifier": "all byte strings", "why_tests_cant": "Universal over hostile inputs.", "anchors": ["src/ws/frame_header.rs: read_header"]}
{"id": "C28", "title": "WebSocket masking is an involution and can be applied piecewise", "statement": "Masking twice with the same key restores the data; length is preserved; writing a payload in any number of pieces through the masking writer produces the same bytes as masking it at once.", "quantifier": "all keys, data and piece boundaries", "why_tests_cant": "All split points modulo 4.", "anchors": ["src/ws/mask.rs: mask_data, Masker::put_slice"]}
{"id": "C29", "title": "WebSocket data frames round-trip", "statement": "Reading the bytes written for a data frame, masked or not, returns an equal frame and leaves the following bytes unread; a strict prefix of the bytes is always an error.", "quantifier": "all data frames, masks and trailing bytes", "why_tests_cant": "Unbounded payloads.", "anchors": ["src/ws/dataframe.rs: DataFrameable::write_to, DataFrame::read_dataframe"]}
{"id": "C30", "title": "WebSocket frame_size is the number of bytes written", "statement": "frame_size(masked) equals the number of bytes write_to appends, and write_to returns that number.", "quantifier": "all data frames and messages, masked or not", "why_tests_cant": "All payload sizes across the length-encoding thresholds.", "anchors": ["src/ws/dataframe.rs: DataFrameable::frame_size, write_to"]}
{"id": "C31", "title": "WebSocket size limit is enforced before the payload is taken", "statement": "read_dataframe_with_limit never returns a frame with more payload bytes than the limit, and within the limit it agrees with read_dataframe.", "quantifier": "all inputs and limits", "why_tests_cant": "All inputs and limits.", "anchors": ["src/ws/dataframe.rs: DataFrame::read_dataframe_with_limit"]}
{"id": "C32", "title": "WebSocket messages reassemble from any fragmentation", "statement": "Splitting a message payload into any number of frames (first with the message opcode, the rest continuation) and reassembling gives the message; sequences with a non-continuation follow-up frame, reserved bits, or an unsupported first opcode are rejected.", "quantifier": "all messages and all fragmentations", "why_tests_cant": "All partitions of all payloads.", "anchors": ["src/ws/message.rs: Message::from_dataframes, OwnedMessage::from_dataframes"]}
{"id": "C33", "title": "WebSocket messages round-trip over the wire", "statement": "Writing a text, binary, ping, pong or close message and reading it back as a frame and then a message returns an equal message.", "quantifier": "all messages, masks", "why_tests_cant": "All payloads.", "anchors": ["src/ws/message.rs: DataFrameable for OwnedMessage, OwnedMessage::from_dataframes"]}
{"id": "C34", "title": "WebSocket close codes convert without loss", "statement": "Every 16-bit code converts to a close code and back to itself; converting a close code to a number and back gives the same close code unless it was an Other alias of a named code.", "quantifier": "all 65536 codes", "why_tests_cant": "Exhaustive rather than sampled.", "anchors": ["src/ws/message.rs: CloseCode"]}
{"id": "C35", "title": "HeaderMap behaves as a case-insensitive map under any operation history", "statement": "After any sequence of insert, push, remove and clear, lookups agree with an abstract finite map keyed by lower-cased name: insert overwrites, push appends with ';', remove deletes, other names are unaffected and no name is present twice.", "quantifier": "all operation sequences over all names and values", "why_tests_cant": "Unbounded histories.", "anchors": ["src/http/header.rs: HeaderMap::insert, push, remove, clear, get_option_value, contains"]}
{"id": "C36", "title": "Header name equality is ASCII case-insensitivity and agrees with hashing", "statement": "Two header names are equal exactly when they are equal after ASCII lower-casing; equality is an equivalence relation; equal names hash equally.", "quantifier": "all pairs and triples of byte strings", "why_tests_cant": "All byte pairs, not only letters.", "anchors": ["src/helper.rs: Helper::eq_bytes_ignore_ascii_case", "src/http/name.rs: PartialEq, Hash for HeaderName"]}
{"id": "C37", "title": "Header blocks round-trip through HTTP/1 text", "statement": "Parsing the text written for a header map returns the same entries in the same order and leaves what follows unread, and a header value can never introduce another header line.", "quantifier": "all header maps, all trailing bytes", "why_tests_cant": "All names and values.", "anchors": ["src/http/header.rs: HeaderMap::encode", "src/helper.rs: Helper::parse_header"]}
{"id": "C38", "title": "An incomplete HTTP/1 head is always reported as partial", "statement": "For every request or response head that parses, parsing any strict prefix of it reports Partial: never success, never a hard error.", "quantifier": "all accepted messages and all cut points", "why_tests_cant": "All cut points of all messages.", "anchors": ["src/http/request.rs: Request::parse_buffer", "src/http/response.rs: Response::parse_buffer", "src/helper.rs"]}
{"id": "C39", "title": "HTTP/1 head parsing does not look at or consume the body", "statement": "If a head parses, appending any bytes gives the same result and the same number of consumed bytes, and the consumed count is the length of the head.", "quantifier": "all accepted heads and all following bytes", "why_tests_cant": "All heads and bodies.", "anchors": ["src/http/request.rs: parse_buffer", "src/http/response.rs: parse_buffer", "src/helper.rs"]}
{"id": "C40", "title": "Responses round-trip through HTTP/1 text", "statement": "Parsing a serialised response returns the same version, status and headers, and what remains unread is exactly the body.", "quantifier": "all responses", "why_tests_cant": "All header maps and bodies.", "anchors": ["src/http/response.rs: Serialize for Response, encode_header, parse_buffer", "src/http/status.rs"]}
{"id": "C41", "title": "Requests round-trip through HTTP/1 text", "statement": "Parsing a serialised request returns the same method, path, query, version and headers, and what remains is exactly the body.", "quantifier": "all requests", "why_tests_cant": "All paths, queries, headers and bodies.", "anchors": ["src/http/request.rs: encode_header, http1_data, parse_buffer"]}
{"id": "C42", "title": "Chunked coding round-trips", "statement": "Reading the chunks written by encode_chunk_data gives back the data pieces in order and the reported offsets delimit exactly the data; any strict prefix of a chunk is Partial; no input makes the reader panic.", "quantifier": "all data pieces, sequences of chunks, prefixes and inputs", "why_tests_cant": "All lengths, in hexadecimal, and all truncations.", "anchors": ["src/helper.rs: Helper::encode_chunk_data, Helper::parse_chunk_data"]}
{"id": "C43", "title": "Numeric header values are read exactly or rejected", "statement": "Reading a header value as a number succeeds exactly when it is a decimal numeral in range and returns its value, and never panics; writing a number as header value and reading it back returns it.", "quantifier": "all byte strings, all 64-bit numbers", "why_tests_cant": "Overflow points near 2^64 and 2^63.", "anchors": ["src/http/value.rs: TryInto<usize>, TryInto<isize>, TryFrom<usize>, TryFrom<isize>", "src/http/header.rs: get_body_len"]}
{"id": "C44", "title": "Status codes convert exactly", "statement": "from_u16 accepts exactly 100..999; from_bytes accepts exactly the three-digit numerals 100..999; as_str and from_bytes are inverse; exactly one class predicate holds below 600 and none from 600.", "quantifier": "all 16-bit numbers, all byte strings", "why_tests_cant": "Exhaustive over all codes and all byte strings.", "anchors": ["src/http/status.rs: StatusCode"]}
{"id": "C45", "title": "Methods and versions convert exactly", "statement": "Parsing accepts exactly the standard method and version names; converting to text and back is the identity on every parsed value.", "quantifier": "all byte strings, all methods and versions", "why_tests_cant": "All strings that are not names must be rejected.", "anchors": ["src/http/method.rs", "src/http/version.rs", "src/helper.rs: parse_method, parse_version"]}
{"id": "C46", "title": "Percent-encoding round-trips and produces only safe characters", "statement": "url_decode(url_encode(s)) = s for every string; the encoding contains only unreserved characters, the separators it deliberately keeps, and % followed by two hex digits.", "quantifier": "all strings", "why_tests_cant": "All strings.", "anchors": ["src/url/url.rs: Url::url_encode, Url::url_decode", "src/helper.rs: URITRANS_MAP, to_hex, convert_hex"]}
{"id": "C47", "title": "Percent-decoding rejects every malformed escape", "statement": "url_decode succeeds exactly when each % is followed by two hex digits, and then replaces each escape by its byte and copies everything else.", "quantifier": "all strings", "why_tests_cant": "All malformed inputs.", "anchors": ["src/url/url.rs: Url::url_decode"]}
{"id": "C48", "title": "URLs round-trip through text", "statement": "Parsing the text of a URL returns an equal URL.", "quantifier": "all URLs with the parts their text form can carry", "why_tests_cant": "All combinations of parts and characters.", "anchors": ["src/url/url.rs: Display for Url, Url::parse", "src/url/scheme.rs"]}
{"id": "C49", "title": "URL parsing yields complete, well-formed parts", "statement": "A parsed URL always has a port (explicit, else 80/443/80/443/21 by scheme, else 0), an absolute URL has a domain, an origin-form one has none, and every part is the percent-decoding of a substring of the input.", "quantifier": "all byte strings", "why_tests_cant": "All inputs.", "anchors": ["src/url/url.rs: Url::parse"]}
{"id": "C50", "title": "URL merge overrides exactly the parts given", "statement": "merge takes each part from the other URL if present there (scheme not None, path not '/', port not 0) and keeps its own otherwise; merging is idempotent and merging an empty URL changes nothing.", "quantifier": "all pairs of URLs", "why_tests_cant": "All part combinations.", "anchors": ["src/url/url.rs: Url::merge"]}
{"id": "C51", "title": "Schemes convert exactly", "statement": "Scheme text parses back to the same scheme; texts longer than 64 bytes are rejected; the five known names map to their own variants and nothing else does.", "quantifier": "all strings", "why_tests_cant": "All strings.", "anchors": ["src/url/scheme.rs: TryFrom<&str> for Scheme, as_str, parse_scheme"]}
{"id": "C52", "title": "Extensions behave as a map keyed by type", "statement": "After any sequence of insert, remove, clear and extend, get returns the value most recently stored for that type or nothing; insert and remove return the value previously stored; len counts the types present.", "quantifier": "all operation histories", "why_tests_cant": "Unbounded histories.", "anchors": ["src/extensions.rs: Extensions"]}
{"id": "C53", "title": "Byte search is exact", "statement": "contains holds exactly when the needle occurs as a contiguous run in the header value; keep-alive, chunked and upgrade detection are exactly that search on the right header.", "quantifier": "all haystacks and needles", "why_tests_cant": "All pairs, including empty and overlong needles.", "anchors": ["src/helper.rs: Helper::contains_bytes", "src/http/header.rs: contains_bytes, is_keep_alive, is_chunked, get_upgrade_protocol"]}
{"id": "C54", "title": "Encoders report the number of bytes they append", "statement": "Every HTTP/1 and HTTP/2 encoder that returns a size appends exactly that many bytes and leaves earlier buffer content unchanged, also when it fails (WebSocket: C30).", "quantifier": "all messages and frames", "why_tests_cant": "All values.", "anchors": ["src/http/header.rs: encode", "src/http/request.rs: encode_header", "src/http/response.rs", "src/http/http2/frame/frame.rs: Frame::encode"]}
{"id": "C55", "title": "The partial flag tells whether a head has been parsed completely", "statement": "After a parse call a message is marked complete exactly when its head was read to the end; a failed parse leaves it marked partial.", "quantifier": "all inputs", "why_tests_cant": "All inputs and failure points.", "anchors": ["src/http/request.rs: parse_buffer, is_partial", "src/http/response.rs: parse_buffer"]}
{"id": "C56", "title": "The host of a URL comes from its authority", "statement": "Host, port and user information of a parsed absolute URL are those of the text cut at the first '/' after '://'; nothing in path or query can change them.", "quantifier": "all absolute URLs", "why_tests_cant": "All paths and queries, including ones chosen by an attacker.", "anchors": ["src/url/url.rs: Url::parse"]}
{"id": "C57", "title": "str::parse of a scheme name gives that scheme", "statement": "\"http\".parse::<Scheme>() gives Scheme::Http, and likewise for the other four known names.", "quantifier": "all known names; all strings of Unicode characters for what it gives instead", "why_tests_cant": "All strings.", "anchors": ["src/url/scheme.rs: FromStr for Scheme"]}
{"id": "C58", "title": "Parsing an HTTP/2 frame never panics", "statement": "Frame::parse gives a frame or an error for every frame header and payload a peer can send, and leaves the header table in a state from which the next frame is parsed just as safely.", "quantifier": "all frame headers, payloads, header-list limits and header tables within their limits", "why_tests_cant": "A peer chooses every byte, and the table depends on everything sent before.", "anchors": ["src/http/http2/frame/mod.rs: Frame::parse", "src/http/http2/frame/data.rs: Data::new"]}
{"id": "C59", "title": "Parsing URLs, request heads and response heads never panics", "statement": "Url::parse, Request::parse_buffer and Response::parse_buffer return a value or an error for every input.", "quantifier": "all byte strings, and all earlier states of the request or response object", "why_tests_cant": "An attacker chooses the bytes; one missed slice bound or unwrap is a remote crash.", "anchors": ["src/url/url.rs: Url::parse", "src/http/request.rs: Request::parse_buffer", "src/http/response.rs: Response::parse_buffer", "src/helper.rs"]}
{"id": "C60", "title": "Reusing a request or response object leaks nothing", "statement": "Parsing with an object that was used before, with any inputs and outcomes including failures, gives the same result, the same unread bytes and, on success, the same head of the message (method or status, URL, version, headers) as parsing with a new object.", "quantifier": "all histories of parses and all inputs", "why_tests_cant": "All histories.", "anchors": ["src/http/request.rs: Request::parse_buffer, clear of parts", "src/http/response.rs: Response::parse_buffer"]}
{"id": "C61", "title": "HTTP2-Settings carries the settings", "statement": "encode_http_settings is base64url without padding of the SETTINGS payload, made of header-safe characters; parse_http_settings reads back exactly the settings RFC 9113 allows, accepts exactly the unpadded base64url texts of legal payloads, and never panics; a request built with upgrade_http2 asks for h2c and carries the settings.", "quantifier": "all settings, all header values, all header maps", "why_tests_cant": "All parameter values and all texts.", "anchors": ["src/http/http2/frame/settings.rs: parse_http_settings, encode_http_settings", "src/http/request.rs: Builder::upgrade_http2"]}
{"id": "C62", "title": "The target of a request", "statement": "An accepted request in origin form has the path and query of its target and the host and port of its Host header; in absolute form the target alone decides; with CONNECT the target is host or host:port.", "quantifier": "all request lines and header sections", "why_tests_cant": "All combinations of targets and headers, chosen by an attacker; routing and access checks depend on it.", "anchors": ["src/http/request.rs: Request::parse_buffer, parse_connect_by_host", "src/http/header.rs: get_scheme, get_authority, get_host"]}
{"id": "C63", "title": "A request made from a HEADERS frame is what the frame says", "statement": "Headers::into_request gives a request with the method of :method, host and port from :scheme and :authority whatever :path is, path and query from :path, and the fields as headers; a frame without :authority is refused. Headers::into_response gives the status and the fields.", "quantifier": "all HEADERS frames", "why_tests_cant": "All combinations of pseudo-header texts, chosen by the peer; routing and access checks depend on the host.", "anchors": ["src/http/http2/frame/headers.rs: Headers::into_request, Headers::into_response, Parts::build_url"]}
{"id": "C64", "title": "Builders do what the calls say", "statement": "A chain of calls on a request or response builder fails exactly with the error of the first failing call; otherwise the last method, URL, version or status set counts, and looking up a header gives the last value set for it, with User-Agent or Server added only if none was set.", "quantifier": "all chains of calls, of any length", "why_tests_cant": "All orders and repetitions of calls.", "anchors": ["src/http/request.rs: Builder", "src/http/response.rs: Builder"]}
{"id": "C65", "title": "Host follows the URL", "statement": "After a URL with host and port is given to a request, by Builder::url or Request::set_url, the Host header is that host and port.", "quantifier": "all requests and URLs", "why_tests_cant": "All earlier headers and URLs.", "anchors": ["src/http/request.rs: Builder::url, Request::set_url, Parts::get_host"]}
{"id": "C66", "title": "The decoder understands a conforming encoder", "statement": "Every header block that has a meaning by RFC 7541 (sections 2.3 to 6) for the table held is decoded by Decoder::decode to exactly those headers and leaves exactly that table.", "quantifier": "all dynamic tables and all header blocks that any conforming encoder may write", "why_tests_cant": "An encoder is free in its choice of representations, string codings and integer lengths; blocks are unbounded and the table depends on the history.", "anchors": ["src/http/http2/hpack/decoder.rs: Decoder::decode_with_cb", "src/http/http2/hpack/header_index.rs: HeaderIndex"]}
{"id": "C67", "title": "A conforming decoder understands the encoder", "statement": "Over a whole connection, what Encoder writes is read by any RFC 7541 decoder as exactly the headers given, names in lower case, and the two tables stay in step.", "quantifier": "all sequences of header lists, all table limits", "why_tests_cant": "The table depends on the whole history; the peer is another implementation.", "anchors": ["src/http/http2/hpack/encoder.rs: Encoder::encode_into", "src/http/http2/hpack/header_index.rs: HeaderIndex"]}
{"id": "C68", "title": "The decoder accepts only what RFC 7541 gives a meaning", "statement": "If Decoder::decode returns headers for a block then the block means by RFC 7541 exactly those headers and that table.", "quantifier": "all dynamic tables and all octet sequences", "why_tests_cant": "All octet sequences a peer can send.", "anchors": ["src/http/http2/hpack/decoder.rs: Decoder::decode_with_cb", "src/http/http2/hpack/huffman.rs: HuffmanDecoder"]}
{"id": "C69", "title": "Heads arriving in pieces: verdicts are final and do not depend on the segmentation", "statement": "Reading a request or response head from a network in pieces, parsing all bytes received so far after each piece with the same object and stopping at the first answer that is not Partial, gives the same verdict and the same message as parsing all the bytes at once with any object; and a verdict other than Partial never changes when more bytes arrive.", "quantifier": "every list of pieces (any number, any cut positions), every previous state of the message object, every continuation", "why_tests_cant": "there are exponentially many ways to cut a message and unboundedly many messages; tests try a few cut points of a few messages", "anchors": ["src/http/request.rs:521-598", "src/http/response.rs:675-725", "src/helper.rs:121-330"]}
{"id": "C70", "title": "Partial is never hopeless: some continuation brings a verdict", "statement": "If parsing a head answers Partial, then there are bytes after which the parser accepts or rejects it: a caller that waits for more input on Partial cannot be made to wait forever whatever the peer sends.", "quantifier": "every buffer, every message object", "why_tests_cant": "the failing inputs answer Partial for every one of infinitely many continuations, which no finite set of continuations shows; and the claim for good prefixes quantifies over all prefixes", "anchors": ["src/http/request.rs:521-598", "src/http/response.rs:675-725", "src/helper.rs:121-330", "src/url/url.rs:75-260"]}
{"id": "C71", "title": "Several HTTP/1 messages on one connection are read back one by one", "statement": "Messages with clean headers serialised back to back on one connection, each with no body, a body of Content-Length bytes, or a chunked body, are read back in order, each with exactly its own body, by a caller that uses parse_buffer, is_chunked, get_body_len and parse_chunk_data with one reused message object; if the stream is cut anywhere, the complete messages are read and the caller is then told Partial.", "quantifier": "every number of messages, every status, version, clean header history, body and chunking, every cut position, every previous state of the object", "why_tests_cant": "request smuggling and response splitting live in the interplay of head, framing headers and body bytes over arbitrarily many messages and cut points; tests exercise single messages", "anchors": ["src/http/response.rs:691-725", "src/http/response.rs:778-791", "src/http/request.rs:552-650", "src/http/header.rs:222-249", "src/helper.rs:392-416"]}
{"id": "C72", "title": "Connection options and codings are recognised as RFC 9110 lists", "statement": "is_keep_alive, get_upgrade_protocol and is_chunked tell whether the Connection or Transfer-Encoding header lists keep-alive, upgrade or chunked: as a comma-separated element, white space around it ignored, in upper or lower case.", "quantifier": "every header map and every value", "why_tests_cant": "whether a substring search coincides with list membership depends on every possible value; tests use a few spellings", "anchors": ["src/http/header.rs:235-265", "src/http/header.rs:299-309"]}
{"id": "C73", "title": "Heads that RFC 9112 allows are accepted and understood", "statement": "Every response head and every origin-form request head that the grammar of RFC 9112 and RFC 9110 generates is accepted by parse_buffer to its last byte, with status or method, version, and for every field name the value RFC 9110 5.3 gives it (the values of all lines of that name, joined with commas).", "quantifier": "every version 1.0 or 1.1, status, reason, method token, list of field lines with any blanks around values, any bytes after the head, any previous state of the object", "why_tests_cant": "a grammar generates infinitely many heads; tests use tidy ones with a reason, a known method and one line per name", "anchors": ["src/http/response.rs:706-725", "src/http/request.rs:552-598", "src/helper.rs:246-390", "src/http/header.rs:69-90"]}
{"id": "C74", "title": "The language accepted as an HTTP/1 head", "statement": "parse_buffer accepts only heads that RFC 9112 generates (empty lines before them apart); in particular header values contain no control characters and no spaces stand before the colon.", "quantifier": "every byte string and every previous state of the object", "why_tests_cant": "what a parser wrongly lets through (request smuggling, header injection) is a claim about all byte strings", "anchors": ["src/http/response.rs:706-725", "src/http/request.rs:552-598", "src/helper.rs:246-390"]}
{"id": "C75", "title": "Exactly the HTTP/2 frames that RFC 9113 allows are accepted", "statement": "A DATA, PRIORITY, RST_STREAM, SETTINGS, PING, GOAWAY or WINDOW_UPDATE frame read off the wire is accepted exactly if RFC 9113 section 6 allows it (stream, length, padding, values), flags that mean nothing for its kind are ignored, and the value returned is the one the RFC gives the payload.", "quantifier": "every kind byte, flag byte, stream id, payload below 2^24 bytes and following bytes", "why_tests_cant": "which frames a receiver wrongly takes or refuses is a claim about all headers and payloads; tests only feed what the encoder wrote", "anchors": ["src/http/http2/frame/frame.rs:50-62", "src/http/http2/frame/frame.rs:155-187", "src/http/http2/frame/frame.rs:226-241", "src/http/http2/frame/reset.rs:41-52", "src/http/http2/frame/go_away.rs:60-74", "src/http/http2/frame/priority.rs:39-50"]}
{"id": "C76", "title": "A received HTTP/2 frame reports its stream, flags and kind", "statement": "Frame::stream_id and Frame::flags of a frame read are the stream and flags it was sent with; is_data, is_header, is_end_stream and is_end_headers answer according to its kind and flags; every Flag setter changes only its own bit.", "quantifier": "every frame of every kind, flags, stream and payload that can be read", "why_tests_cant": "dispatching a connection's frames to streams relies on this for all frames", "anchors": ["src/http/http2/frame/frame.rs:78-134", "src/http/http2/frame/flag.rs:24-88"]}
{"id": "C77", "title": "PUSH_PROMISE frames are understood", "statement": "Reading what PushPromise::encode wrote gives the same stream, the promised stream and the promised request, and leaves the reader's header table in step with the writer's, so later header blocks are still readable; a promise too short to name a stream is refused.", "quantifier": "every promise, header table, limits and later frames", "why_tests_cant": "a table that silently goes out of step shows only in later frames of the same connection", "anchors": ["src/http/http2/frame/headers.rs:435-491", "src/http/http2/frame/frame.rs:171-176"]}
{"id": "C78", "title": "The pseudo-headers made for a URL carry that URL", "statement": "Building HTTP/2 request parts from a method and a URL with a host (Parts::request) and making the URL of the request from those parts as a receiver does (build_url) gives back the URL: scheme, host, port, path and query.", "quantifier": "every URL with a scheme and host whose text form is unambiguous, every method and protocol", "why_tests_cant": "a lost port or query, or a path decoded twice, shows only for URLs that have them", "anchors": ["src/http/http2/frame/headers.rs:520-540", "src/http/http2/frame/headers.rs:587-599"]}
{"id": "C79", "title": "SETTINGS built with the setters reach the peer", "statement": "After any sequence of setter calls every setting has the value of the last call that names it and the others are absent; a frame size outside 2^14..2^24-1 panics; the frame written is read by the peer as those settings.", "quantifier": "every sequence of setter calls with 32-bit values, every bytes after the frame", "why_tests_cant": "which of several calls counts, and which accepted values the peer refuses, is a claim about all call sequences and values", "anchors": ["src/http/http2/frame/settings.rs:142-211", "src/http/http2/frame/settings.rs:213-262"]}
{"id": "C80", "title": "Static and owned header names and values behave alike", "statement": "Two histories of header map operations that use the same texts, some as static strings and others as owned bytes, return the same results and end in maps that are equal and answer every question alike.", "quantifier": "every two histories of insert, push, remove, assign and clear with the same texts in any variants", "why_tests_cant": "each method has its own code for each variant, and tests use only one of them", "anchors": ["src/http/name.rs:21-170", "src/http/value.rs:20-240", "src/http/header.rs:20-330"]}
{"id": "C81", "title": "Exactly the chunks of RFC 9112 are accepted", "statement": "parse_chunk_data accepts a buffer exactly if it starts with a complete chunk of RFC 9112 section 7.1 (with extensions allowed and ignored), and returns the length of its line and of its data; it reports an incomplete chunk exactly for a proper prefix of one.", "quantifier": "every buffer", "why_tests_cant": "the accepted language is a claim about all byte strings", "anchors": ["src/helper.rs:316-329", "src/helper.rs:392-407"]}
{"id": "C82", "title": "Fragmented WebSocket messages with control messages between the fragments arrive", "statement": "A sequence of messages written on one connection, each cut into frames at any places and with control messages between the frames of a data message, is received as the same messages in the order in which they are completed, whatever bytes follow.", "quantifier": "every sequence of messages, every way to cut them into frames, every interleaving of control messages, every choice of masking keys", "why_tests_cant": "the ways to cut and interleave are unbounded", "anchors": ["src/ws/dataframe.rs:76-86", "src/ws/dataframe.rs:153-190", "src/ws/message.rs:187-243", "src/ws/message.rs:358-363"]}
{"id": "C83", "title": "Exactly the WebSocket frames of RFC 6455 are accepted", "statement": "The frame reader accepts a buffer exactly if it starts with a frame of RFC 6455 section 5.2 that is masked as the reader demands, has no reserved bits and a known opcode, and returns its parts and the bytes after it.", "quantifier": "every buffer and both settings of should_be_masked", "why_tests_cant": "the accepted language is a claim about all byte strings", "anchors": ["src/ws/frame_header.rs:70-125", "src/ws/dataframe.rs:37-86"]}
{"id": "C84", "title": "Exactly the WebSocket messages of RFC 6455 are accepted", "statement": "A list of frames is accepted as a message exactly if it is a message of RFC 6455: the opcode on the first frame, continuation frames after it, FIN on the last frame only, control messages not fragmented, text valid UTF-8, and a close code that may be sent.", "quantifier": "every list of frames", "why_tests_cant": "the accepted lists are unbounded", "anchors": ["src/ws/message.rs:187-243"]}
{"id": "C85", "title": "A WebSocket frame that arrives in pieces can be read when it is complete", "statement": "Reading an incomplete frame reports that more is needed and leaves the bytes in the buffer, so that reading again once the rest has arrived gives the frame.", "quantifier": "every frame, every place to cut it, every bytes after it", "why_tests_cant": "the places to cut a frame are unbounded", "anchors": ["src/ws/frame_header.rs:70-125", "src/ws/dataframe.rs:37-86"]}
{"id": "C86", "title": "Hexadecimal text is converted exactly", "statement": "hex_to_vec converts a text of hexadecimal digits, two for each byte, to those bytes, and refuses every other text without panicking.", "quantifier": "every text", "why_tests_cant": "the texts are unbounded, and odd lengths and other characters behave differently at every place", "anchors": ["src/helper.rs:418-438"]}
{"id": "C87", "title": "A built URL is what the calls say and survives its text form", "statement": "Url::builder() followed by any calls gives a URL with the last value given for each part, or the error of a scheme of more than 64 bytes; if a scheme and host were given, printing and parsing it gives it back, with the default port if none was given.", "quantifier": "every sequence of calls with any texts", "why_tests_cant": "the sequences of calls and the texts are unbounded; the texts that change meaning are rare", "anchors": ["src/url/builder.rs:21-116", "src/url/url.rs:341-372"]}
{"id": "C88", "title": "Messages are printed as they are sent", "statement": "Displaying a request or response gives exactly the bytes that serialize writes for it, and the printed form is always valid UTF-8 text.", "quantifier": "every request and response with a header map and a text body", "why_tests_cant": "header values are arbitrary bytes; the difference shows only for values that are no text", "anchors": ["src/http/request.rs:703-717", "src/http/response.rs:793-806", "src/http/header.rs:366-376", "src/http/status.rs:226-235", "src/http/value.rs:98-105"]}
{"id": "C89", "title": "A WebSocket message means the same borrowed and owned", "statement": "Converting a Message to an OwnedMessage and back, or building either with its constructors, gives the same frame on the wire and the same answers to is_control, is_data, is_close, is_ping and is_pong.", "quantifier": "every message: opcode, payload, close status and mask", "why_tests_cant": "all combinations of opcode, payload and status", "anchors": ["src/ws/message.rs:38-173", "src/ws/message.rs:279-343", "src/ws/message.rs:366-483"]}
{"id": "C90", "title": "A conforming HTTP/2 receiver hears what was sent", "statement": "Whatever control frames, header lists and bodies are written on one connection, a receiver that follows RFC 9113 and RFC 7541 (frames within its limit, CONTINUATION frames put together, its own dynamic table) hears exactly those, in order, with the ends of streams.", "quantifier": "every sequence of messages, sizes of fields and bodies, frame size limits and table sizes", "why_tests_cant": "sequences and sizes are unbounded and each header block depends on all before it", "anchors": ["src/http/http2/frame/headers.rs:297-303", "src/http/http2/frame/headers.rs:602-650", "src/http/http2/frame/frame.rs:136-151", "src/http/http2/frame/data.rs:93-112", "src/http/http2/hpack/encoder.rs:42-176"]}
{"id": "C91", "title": "Header lists have their pseudo-header fields in front", "statement": "The header list that a conforming receiver hears for a request or response has all pseudo-header fields before the regular fields, as RFC 9113 section 8.3 demands.", "quantifier": "every message, frame size limit and table size", "why_tests_cant": "all header lists and parts", "anchors": ["src/http/http2/frame/headers.rs:569-585", "src/http/http2/frame/headers.rs:602-650"]}
{"id": "C92", "title": "A conforming HTTP/2 receiver hears a promise with its request", "statement": "A push promise is heard by a receiver that follows RFC 9113 and RFC 7541 as a promise on that stream of the promised stream, with all pseudo-headers and fields of the request.", "quantifier": "every promise, frame size limit and state of the encoder's table", "why_tests_cant": "all header lists and table states", "anchors": ["src/http/http2/frame/headers.rs:461-497", "src/http/http2/frame/headers.rs:569-585", "src/http/http2/frame/headers.rs:602-650"]}
{"id": "C93", "title": "What a conforming HTTP/2 peer says is read as meant", "statement": "Frames from a peer that follows RFC 9113 and RFC 7541 are read as the frames that peer means: the same control frames, and for every header list the same method, scheme, authority, path, status and field values (several lines of one field being one list, several cookie lines one cookie).", "quantifier": "every conforming sequence of frames, header lists, frame size limits, table sizes", "why_tests_cant": "sequences, header lists and encodings are unbounded and each header block depends on all before it", "anchors": ["src/http/http2/frame/headers.rs:129-175", "src/http/http2/frame/frame.rs:155-187", "src/http/http2/hpack/decoder.rs:107-320", "src/http/header.rs:69-90", "src/http/method.rs:121-139"]}
{"id": "C94", "title": "Malformed HTTP/2 header lists are refused", "statement": "A HEADERS frame whose header list is malformed by RFC 9113 section 8.2 or 8.3 (capital letters or other bytes in names, CR, LF or NUL in values, unknown, repeated, mixed or misplaced pseudo-header fields) is not accepted.", "quantifier": "every header block, table state, stream, flag byte and list size limit", "why_tests_cant": "the set of malformed lists is infinite", "anchors": ["src/http/http2/frame/headers.rs:129-175", "src/http/http2/frame/frame.rs:155-187", "src/http/http2/hpack/decoder.rs:107-320", "src/http/header.rs:69-90"]}
{"id": "C95", "title": "A field received over HTTP/2 stays one field in HTTP/1 text", "statement": "When the fields of a message received over HTTP/2 are written as HTTP/1 text, a reader of that text finds those fields, nothing more and nothing less.", "quantifier": "every header block, table state, stream, list size limit, and text behind the head", "why_tests_cant": "names and values come from the peer and are arbitrary bytes", "anchors": ["src/http/http2/frame/headers.rs:129-175", "src/http/http2/frame/frame.rs:155-187", "src/http/http2/hpack/decoder.rs:107-320", "src/http/header.rs:287-297", "src/helper.rs:367-395"]}
{"id": "C96", "title": "Where a request's body ends is what RFC 9112 says", "statement": "For an accepted HTTP/1 request, is_chunked and get_body_len say where the body ends as RFC 9112 section 6.3 does, and a request whose framing RFC 9112 calls invalid (differing or malformed Content-Length, a last transfer coding other than chunked) is not accepted.", "quantifier": "every request head of the grammar, with any field lines in any order, and any bytes behind it", "why_tests_cant": "the combinations of field lines, spellings and values are infinite; two readers that disagree on one of them make request smuggling possible", "anchors": ["src/http/request.rs:536-640", "src/http/header.rs:222-233", "src/http/header.rs:243-249", "src/http/value.rs:132-164", "src/helper.rs:367-395"]}
{"id": "C97", "title": "Checking a request before it is promised", "statement": "PushPromise::validate_request accepts exactly the requests that RFC 9113 section 8.4 lets a server promise: a safe and cacheable method, and no content.", "quantifier": "every request", "why_tests_cant": "methods, headers and lengths are unbounded", "anchors": ["src/http/http2/frame/headers.rs:412-434", "src/http/request.rs:491-493", "src/http/header.rs:222-233"]}
{"id": "C98", "title": "A received frame can be sent on", "statement": "A frame that Frame::parse made of a peer's bytes can be given to Frame::encode, and the reader of the result gets the same frame.", "quantifier": "every frame of every kind, payload, flags, stream, table state, frame size limit", "why_tests_cant": "payloads and flags are unbounded", "anchors": ["src/http/http2/frame/frame.rs:136-187", "src/http/http2/frame/data.rs:93-112", "src/http/http2/frame/headers.rs:297-303", "src/http/http2/frame/headers.rs:461-497", "src/http/http2/frame/priority.rs:72-79"]}
{"id": "C99", "title": "What a header block can be made into", "statement": "Decoding header blocks takes no more memory than what was received and the limits in force allow. A block of n bytes gives at most n fields, and the size of the header list (RFC 9113 6.5.2) is at most n times the size of the dynamic table (or 64) plus 5; over a connection the same holds for all blocks together, and the table never exceeds its limit. And a HEADERS frame is not decoded past the first field that exceeds the header list limit given to Headers::parse.", "quantifier": "for all header tables with the size invariant, all blocks and sequences of blocks, all limits", "why_tests_cant": "The bound is about every sequence of representations and every state of the table; a test shows the size of one list.", "anchors": ["src/http/http2/hpack/decoder.rs:107-175", "src/http/http2/hpack/decoder.rs:238-310", "src/http/http2/hpack/huffman.rs:48-89", "src/http/http2/frame/headers.rs:129-175"]}
{"id": "C100", "title": "Copies of messages are copies", "statement": "replace_clone hands out a message with the method or status, version, URL, headers, system values, extensions and body of the original, and leaves the original unchanged but for the new body. Exchanging the body with into and exchanging it back gives the message back. from_parts of into_parts of a response is that response. A response turned into one with a Binary body by into_binary is sent as the same bytes, or not sent with the same error.", "quantifier": "for all requests and responses, all extension types and values, all body types and all behaviours of their serialize", "why_tests_cant": "The claim is about every type that can be stored in the extensions and every body type; a test stores one value of one type.", "anchors": ["src/http/request.rs:518-534", "src/http/request.rs:652-661", "src/http/request.rs:731-749", "src/http/response.rs:424-430", "src/http/response.rs:621-623", "src/http/response.rs:640-684", "src/http/response.rs:726-735", "src/http/response.rs:758-775"]}
{"id": "C101", "title": "Headers by index", "statement": "map[name] = value is the same as insert(name, value): it never panics, the first header of that name (in any case) gets the value and keeps its place, all others stay as they are, and a name that was missing is appended. map[name] then is the value. Changing map[name] in place applies the change to the value of the first such header, or to an empty one appended. Reading map[name] panics exactly if there is no such header.", "quantifier": "for all header maps, names, values and changes", "why_tests_cant": "It is a statement about every map and every name in it; a test looks at one.", "anchors": ["src/http/header.rs:116-139", "src/http/header.rs:313-331"]}
{"id": "C102", "title": "Answers to PING and SETTINGS", "statement": "What is read as a PING is a frame of eight bytes on stream 0; ret_pong of it is written as the PING frame on stream 0 with the ACK flag and the same eight bytes, which the peer reads as that answer. Settings::ack is written as the empty SETTINGS frame with the ACK flag, which the peer reads as an acknowledgment that sets nothing.", "quantifier": "for all byte streams, all payloads, all flags, all bytes that follow", "why_tests_cant": "The claim is about every byte stream from which a PING is read; a test reads one.", "anchors": ["src/http/http2/frame/ping.rs:38-122", "src/http/http2/frame/settings.rs:147-156", "src/http/http2/frame/frame.rs:51-62", "src/http/http2/frame/frame.rs:155-187"]}
{"id": "C103", "title": "Numbers and frames on the wire", "statement": "Stream identifiers, size increments, error codes and 24-bit lengths are written as big-endian numbers and read back; the reserved bit of stream identifiers and size increments is ignored. Serialize for Frame writes what Frame::encode writes, and encoded_len is its length.", "quantifier": "for all numbers, all frames, all bytes that follow", "why_tests_cant": "Every number and every frame is meant; tests try some.", "anchors": ["src/http/http2/frame/mod.rs:47-186", "src/http/http2/frame/frame.rs:189-213"]}
{"id": "C104", "title": "is_partial tells an incomplete message from a wrong one", "statement": "If a reader is given the beginning of something it could read, and something is missing, then the error it gives answers is_partial with true: heads of requests and responses, chunks, HTTP/2 frame headers, WebSocket frames.", "quantifier": "for all messages and all of their proper prefixes", "why_tests_cant": "All messages cut at all places; a test cuts one at a few.", "anchors": ["src/error.rs:45-50", "src/http/http2/frame/frame.rs:226-241", "src/ws/dataframe.rs:37-86"]}
{"id": "C105", "title": "Where the body of a response ends", "statement": "An accepted response has a framing that RFC 9112 6.3 allows, and is_chunked and get_body_len say where its body ends as RFC 9112 6.3 does: no body for 1xx, 204 and 304, in chunks if the last transfer coding is chunked, until the connection is closed for another coding, the value of Content-Length, and until the connection is closed if there is neither field.", "quantifier": "for all response heads of the grammar of RFC 9112 and all bytes after them", "why_tests_cant": "The set of heads is unbounded: any number of lines of both fields in any order with any values; a test sees the combinations its author thought of.", "anchors": ["src/http/header.rs:222-252", "src/http/response.rs:700-735"]}
{"id": "C106", "title": "Comparing URLs with text", "statement": "A URL read from a text equals that text (Url == str), and a text equals at most one URL: comparing with a text is comparing with the URL that the text is.", "quantifier": "for all texts and all URLs that text can carry", "why_tests_cant": "Texts and URLs are unbounded; the comparison goes through Display, whose spelling has to be compared with every spelling that the parser accepts.", "anchors": ["src/url/url.rs:341-412"]}
{"id": "C107", "title": "Ready-made responses arrive with their body", "statement": "A response made by Response::text, json, status404, status503, status502 or status500 and given a body is built with its status and content type, is written for every body, and a receiver of the bytes gets the same response with the same body, and what follows as what follows.", "quantifier": "for all bodies, all bytes sent after them and all objects the receiver parses into", "why_tests_cant": "The constructors add no Content-Length, so what the receiver takes for the body depends on all the bytes that follow; a test that parses the head alone, or compares the text written, does not notice.", "anchors": ["src/http/response.rs:282-294", "src/http/response.rs:347-381"]}
{"id": "C108", "title": "Bodies received over HTTP/2 and sent on over HTTP/1.1", "statement": "A request (response) made from a HEADERS frame and written as HTTP/1.1 with the bytes of its DATA frames as its body is received as the same request (response) with this body, and what is sent next on the connection is read as what it is.", "quantifier": "for all HEADERS frames whose request can be written and read (C41), all bodies, all bytes sent after them and all objects the receiver parses into", "why_tests_cant": "Request smuggling: the fields and the body are both chosen by the peer, and a test pins one combination, not all Content-Length values against all bodies and all that follows them.", "anchors": ["src/http/http2/frame/headers.rs:274-300", "src/http/request.rs:625-630", "src/http/header.rs:222-252"]}
{"id": "C109", "title": "A message that is received and written again", "statement": "A request (response) that was accepted and is written again, by a proxy say, is read from what was written as one request (response), with the method, version and headers (status, version and headers) it had, and its body is what is left.", "quantifier": "for all bytes accepted, all bodies and all objects the first and second receiver parse into", "why_tests_cant": "Request splitting: whether one request can be written as two depends on every target a client may send, and the escapes that do it are in no example of normal use.", "anchors": ["src/http/request.rs:552-650", "src/helper.rs:367-390", "src/url/url.rs:187-240"]}
{"id": "C110", "title": "Texts of error codes and errors tell them apart", "statement": "The error codes of HTTP/2 have the numbers and names of RFC 9113; Debug and Display print different codes differently; Display prints different errors differently.", "quantifier": "for all 2^32 error codes and all kinds of errors", "why_tests_cant": "A test prints some codes; that no two of 2^32 are printed alike is a statement about all pairs.", "anchors": ["src/http/http2/frame/reason.rs:30-146", "src/error.rs:31-43", "src/http/http2/error.rs:70-76", "src/ws/error.rs:14-19"]}
{"id": "C111", "title": "Frames in a queue by priority", "statement": "PriorityFrame is compared by a total order that agrees with equality; only equal frames are equal; frames leave a queue by falling weight and those of one weight in the order in which they were put in.", "quantifier": "for all frames, weights and queues of any length", "why_tests_cant": "What a heap does with frames that compare as equal is up to the heap; a test sees one of the orders that are allowed.", "anchors": ["src/http/http2/frame/frame.rs:284-320"]}
{"id": "C112", "title": "The first word on a connection decides the protocol", "statement": "A text is taken for a request only if its first word is a method and for a response only if its first word is a version; otherwise it is rejected, not reported as incomplete, as soon as that word has ended, whatever follows. So what is accepted as a request is rejected as a response and the other way round, and HTTP2_MAGIC, the connection preface of RFC 9113, is rejected as both from its fourth octet on.", "quantifier": "for all texts, all continuations, all cuts of the preface and all objects parsed into", "why_tests_cant": "A server that takes HTTP/1 and HTTP/2 on one port relies on no continuation of the preface being accepted or waited for; continuations are infinitely many.", "anchors": ["src/http/http2/mod.rs:13-14", "src/helper.rs:218-243", "src/http/request.rs:552-598", "src/http/response.rs:706-725"]}
{"id": "C113", "title": "What is read is bounded by what it was read from", "statement": "Reading does not make input grow without bound. The parts of a URL together are no larger than its text. The names and values of the headers of an accepted message together are no larger than the bytes consumed, and there are at most a quarter as many headers as bytes. A request with its URL, into which host and scheme are copied from the headers, takes at most four times the bytes consumed, and this factor is reached in the limit. A chunk lies within the bytes given with its line end, and a WebSocket payload is at least two bytes shorter than the frame consumed.", "quantifier": "for all texts, buffers and objects parsed into; the factor four for hosts of every length", "why_tests_cant": "A bound on memory is a claim about inputs of every length and with every mixture of escapes, repeated headers and bytes that are not UTF-8.", "anchors": ["src/url/url.rs:105-230", "src/http/request.rs:552-598", "src/http/response.rs:706-725", "src/helper.rs:367-416", "src/ws/dataframe.rs:37-112"]}
{"id": "C114", "title": "Displaying a URL and reading it settles at once", "statement": "The text of a URL that was read is a normal form: it is read again, and the URL read from it is displayed as the same text. So a check made on the displayed URL holds for whoever reads that text.", "quantifier": "for all texts that are read as URLs", "why_tests_cant": "Whether a second reading decodes further depends on every combination of escapes in every part, and on texts escaped any number of times.", "anchors": ["src/url/url.rs:105-260", "src/url/url.rs:341-372"]}
{"id": "C115", "title": "A refused header list does not put the connection out of step", "statement": "A HEADERS frame may be refused on its own account, because its header list is over the limit or a pseudo-header has a value that cannot be parsed, and the connection may go on (RFC 9113 10.5.1, 8.1.1). Every other frame is then judged and understood as if nothing had been refused: the verdict on a frame does not depend on the limits in force for other frames, and each header list of a conforming sender (whose blocks the decoder can read, see C66) is accepted exactly if it is within its own limit and its own pseudo-headers can be parsed, and is then the list that was meant.", "quantifier": "for all header tables within their limits, all sequences of frames, all limits, whichever frames are refused", "why_tests_cant": "The decoder's table after a refused frame depends on everything sent before, and the effect shows only in later frames that refer to it.", "anchors": ["src/http/http2/frame/headers.rs:129-175", "src/http/http2/hpack/decoder.rs:107-175", "src/http/http2/frame/frame.rs:155-187"]}
{"id": "C116", "title": "str::parse reads a method name without regard to case", "statement": "s.parse::<Method>() gives one of the nine known methods exactly if s is its name but for the case of ASCII letters, and fails for every other text; in particular every known method is read back from its own text.", "quantifier": "for all texts of Unicode characters", "why_tests_cant": "The upper case of a text is taken over all of Unicode, and a handful of characters outside ASCII have their upper case in ASCII.", "anchors": ["src/http/method.rs:139-144", "src/http/method.rs:120-137"]}
{"id": "C117", "title": "get_authority names the host and the port", "statement": "For every URL with host and port, get_authority() is host:port, or the host alone if the port is the default of the URL's scheme; so scheme and authority together tell where to connect.", "quantifier": "for all URLs with host and port; for all accepted requests", "why_tests_cant": "Hosts, ports and schemes are unbounded, and the claim covers URLs however they came about: parsed, taken from Host, or from the target of CONNECT.", "anchors": ["src/url/url.rs:303-322", "src/http/request.rs:496-498", "src/http/request.rs:563-596"]}
{"id": "C118", "title": "The methods said to have no body are those of RFC 9110", "statement": "Method::is_nobody() is true of every method whose requests never have content and false of every method whose requests may; Method::res_nobody() is true exactly of the methods whose successful responses have no content.", "quantifier": "for all methods, among them all extension methods", "why_tests_cant": "Extension methods are unbounded, and an example per method only repeats the table it is meant to check.", "anchors": ["src/http/method.rs:73-81", "src/http/method.rs:83-90"]}
{"id": "C119", "title": "The character classes of Helper are those of the RFCs", "statement": "Helper's classes are the ones they are named for: is_alpha, is_digit and is_hex those of RFC 5234; the characters of schemes and URIs those of RFC 3986; the characters of header names and tokens RFC 9110's tchar, as the comment of is_token says; is_status_token those of a reason phrase in RFC 9112.", "quantifier": "for all bytes", "why_tests_cant": "The tables have 256 entries each; a test of some letters does not see the one entry that lets a delimiter through.", "anchors": ["src/helper.rs:24-94", "src/helper.rs:99-132", "src/helper.rs:169-191", "src/url/scheme.rs:34-61"]}
{"id": "C120", "title": "A field that must not be indexed is sent on so", "statement": "A header field received over HTTP/2 as a literal never indexed (RFC 7541 6.2.3: passwords, tokens) is sent on as a literal never indexed, and its value is put in no compression table, neither of this side nor of the next peer.", "quantifier": "for all header blocks received, all tables, all header lists sent", "why_tests_cant": "A test that decodes what was encoded sees the right headers; which representation was used, and what stays in the table, shows only in the octets, for every list and table.", "anchors": ["src/http/http2/hpack/decoder.rs:119-172", "src/http/http2/hpack/encoder.rs:65-142", "src/http/http2/hpack/header_index.rs:74-90"]}
{"id": "C121", "title": "Changing the size of the compression table does not disturb the connection", "statement": "Header lists sent with one encoder are read by an RFC 7541 decoder that began with the same table size, however often HeaderIndex::set_max_table_size is called on the encoder's table in between; and a table made smaller is announced by a size update at the beginning of the next block (RFC 7541 4.2).", "quantifier": "for all histories of header lists and size changes, all sizes", "why_tests_cant": "The tables of both sides drift apart only for some sequences of sizes and entries; a test that changes the size once sees the headers arrive.", "anchors": ["src/http/http2/hpack/header_index.rs:112-151", "src/http/http2/hpack/encoder.rs:42-92"]}
{"id": "C122", "title": "An encoder and a decoder that share a table do not disturb each other", "statement": "Encoder::new_index and Decoder::new_index can be given one and the same table for a connection: whatever the peer writes in good HPACK and whatever is sent, in any order, both sides agree on every header list, as with the two independent tables of RFC 7541 2.2.", "quantifier": "for all histories of header lists sent and blocks received, all table sizes", "why_tests_cant": "The two directions get mixed up only when entries of both are in the table and an index is used afterwards; tests of the encoder and the decoder use one direction at a time.", "anchors": ["src/http/http2/hpack/encoder.rs:26-40", "src/http/http2/hpack/decoder.rs:92-106", "src/http/http2/hpack/header_index.rs:54-131"]}
{"id": "C123", "title": "Encoders in several threads that share a table write blocks that can be sent in some order", "statement": "Encoder::new_index takes an Arc<RwLock<HeaderIndex>>, so encoders in several threads can share the table of a connection: however their steps are interleaved nothing panics, and when all have written their blocks there is an order in which these can be sent so that an RFC 7541 decoder hears every header list.", "quantifier": "for all numbers of threads, all header lists and all interleavings of their steps", "why_tests_cant": "Which interleaving happens is up to the scheduler, and the window between the lookup and the insertion of one header is a few instructions; tests run one thread.", "anchors": ["src/http/http2/hpack/encoder.rs:22-40", "src/http/http2/hpack/encoder.rs:42-92"]}
{"id": "C124", "title": "A header block is not longer than the header list", "statement": "The block that Encoder::encode writes for a header list is no longer than the size of that list as RFC 9113 6.5.2 counts it (name, value and 32 for each field), so that a list kept within a limit needs no more than that many bytes on the wire.", "quantifier": "for all header lists that fit in memory and all states of the table", "why_tests_cant": "The length depends on the code words of all characters and on the numbers in front of the strings; tests look at a few ASCII lists, which do get shorter.", "anchors": ["src/http/http2/hpack/encoder.rs:65-175", "src/http/http2/hpack/huffman.rs:155-206"]}
{"id": "C125", "title": "A field that was just sent is sent again as an index", "statement": "When a field that fits in the table of the encoder is sent twice in a row, the second time it is written as an index and the table is not changed: repeated fields cost a byte or two, which is what the table is for.", "quantifier": "for all fields that fit in the table and all states of the table", "why_tests_cant": "The block decodes to the right list either way; only its form and the contents of the table show what went wrong, for names that are in the static table with other values.", "anchors": ["src/http/http2/hpack/header_index.rs:74-90", "src/http/http2/hpack/encoder.rs:65-92"]}
{"id": "C126", "title": "A value pushed to a field is one more value of the field", "statement": "HeaderMap::push adds a value to a field that is there already, so that the peer, reading the field as RFC 9110 5.3 reads several lines or a list, finds the elements it had before and those of each value pushed.", "quantifier": "for all header maps, names, values and numbers of values pushed", "why_tests_cant": "A test sees that both texts are in the value; that no list is ever read right afterwards is about every value and every number of pushes.", "anchors": ["src/http/value.rs:59-71", "src/http/header.rs:46-67"]}
{"id": "C127", "title": "Unsafe code is given what it requires", "statement": "The bytes that Helper makes a str without a check (from_utf8_unchecked) are UTF-8, whatever head, URL or chunk is parsed; and every status code that can be made lies in the range that as_str looks up without a check in release builds. Otherwise safe calls lead to undefined behaviour.", "quantifier": "for all inputs of Request::parse_buffer, Response::parse_buffer, Url::parse and Helper::parse_chunk_data, and all status codes", "why_tests_cant": "A str that is not UTF-8 is undefined behaviour, which no assertion can see; which bytes reach the conversion depends on all bytes of the input.", "anchors": ["src/helper.rs:246-307", "src/http/status.rs:125-142", "src/http/status.rs:317"]}
{"id": "C128", "title": "Text made of bytes", "statement": "Where bytes that may not be UTF-8 become text (url_decode, header values as String or displayed, header names from bytes, get_host, WebSocket text and close reasons), the text is the one of the Unicode standard: code points as they are and one U+FFFD for each maximal ill-formed subpart. Strings that stand for different bytes are decoded to different text.", "quantifier": "for all byte strings", "why_tests_cant": "Which bytes belong to one replaced part depends on the lead byte and all that follow; that no two inputs are confused is a statement about all pairs of inputs.", "anchors": ["src/url/url.rs:273-301", "src/http/value.rs:98-105", "src/http/value.rs:166-175", "src/http/name.rs:174", "src/http/header.rs:181-196", "src/ws/message.rs:449-468"]}
{"id": "C129", "title": "Parsing into a used object leaves nothing of the message before", "statement": "After parse_buffer into a request or response that was used before, everything that can be read from it (head, extensions, system values of the headers, body) is what it would be had the same bytes been parsed into a new object.", "quantifier": "for all inputs and all earlier states of the object", "why_tests_cant": "The earlier state is arbitrary: a test parses into a few used objects and compares the head.", "anchors": ["src/http/request.rs:552-598", "src/http/response.rs:706-720", "src/http/header.rs:102-104"]}
{"id": "C130", "title": "Comparing header maps", "statement": "Two header maps are equal (==) exactly if they hold the same values under the same names and the same system values, whatever was done to them before; being equal is reflexive, symmetric and transitive; a cleared map is equal to a new one.", "quantifier": "for all header maps and all sequences of operations", "why_tests_cant": "It is about pairs of histories of any length, and names that are compared inexactly.", "anchors": ["src/http/header.rs:24-28", "src/http/header.rs:102-104", "src/http/header.rs:275-285", "src/http/name.rs:46-52", "src/http/value.rs:208-217"]}
{"id": "C131", "title": "Headers changed while iterating", "statement": "Whatever is done to a header map, changes of names and values through iter_mut included, a name that is removed is not there any more, and a map whose headers can be written on lines of their own is read back as it was.", "quantifier": "for all histories of operations, with any change made while iterating", "why_tests_cant": "The change is any function of place, name and value, and histories are of any length.", "anchors": ["src/http/header.rs:42-44", "src/http/header.rs:92-100", "src/http/header.rs:287-297"]}
{"id": "C132", "title": "The work of reading header lines", "statement": "The number of header names that are compared while the header lines of a message are read is at most in proportion to the number of bytes read.", "quantifier": "for all byte strings", "why_tests_cant": "It is about the growth of the work for inputs of any length.", "anchors": ["src/http/header.rs:69-90", "src/helper.rs:367-390"]}
{"id": "C133", "title": "Only WebSocket frames and messages that may be sent are written", "statement": "DataFrameable::write_to writes only what RFC 6455 lets an endpoint send: frames without reserved bits and with a known opcode, control frames short and in one piece, text in UTF-8, close messages with a code that may be sent and a reason in UTF-8. Everything else is refused.", "quantifier": "for all frames, messages and masking keys", "why_tests_cant": "It is about every combination of flags, opcodes, types, status codes and payloads, and a test that writes and reads with the same code does not see what another endpoint may not be sent.", "anchors": ["src/ws/dataframe.rs:153-190", "src/ws/frame_header.rs:34-67", "src/ws/message.rs:133-173"]}
{"id": "C134", "title": "A receiver that follows RFC 9112 hears what was written", "statement": "The head that is written for a response or a request is, whatever follows it, a head of RFC 9112 with the version, the status or method and path, and exactly the fields of that message, so that a receiver that follows the RFC and not this crate hears the same message.", "quantifier": "for all responses and requests that are written, all bytes after them and all readings by the grammar of RFC 9112", "why_tests_cant": "Tests read what was written with the parser of the same crate, which accepts much that RFC 9112 does not; the claim is about every reading by the grammar of the RFC, for messages of any size.", "anchors": ["src/http/response.rs:691-698", "src/http/request.rs:640-650", "src/http/header.rs:287-297"]}
{"id": "C135", "title": "A body written in pieces is heard whole", "statement": "A body of which each piece is written with encode_chunk_data, and the end with an empty chunk, is for a receiver that follows RFC 9112 the pieces in order and nothing else; the next message begins after it, whatever follows.", "quantifier": "for all lists of pieces of any number and size, all bytes after them and all readings by the grammar of RFC 9112 7.1", "why_tests_cant": "Tests write one or two chunks and read them with the same crate; the claim is about every list of pieces and every reading by the grammar, with extensions and trailer fields.", "anchors": ["src/helper.rs:409-416"]}
{"id": "C136", "title": "A conforming server hears the requests that were sent", "statement": "Requests that are written with http1_data one after the other, their bodies whole or in pieces with encode_chunk_data, are for a server that follows RFC 9112 exactly these requests with these bodies: there is no other reading of the bytes.", "quantifier": "for all lists of requests and bodies of any number and size and all readings of the bytes by RFC 9112 (grammar, 6.3 and 7.1)", "why_tests_cant": "Request smuggling is a second reading of the same bytes by another program; tests of this crate read with this crate. Excluding a second reading is a claim about all ways to cut an unbounded stream.", "anchors": ["src/http/request.rs:625-650", "src/helper.rs:409-416", "src/http/header.rs:287-297"]}
{"id": "C137", "title": "A conforming client hears the responses that were sent", "statement": "Responses that are written with serialize one after the other, their bodies whole or in pieces with encode_chunk_data, are for a client that follows RFC 9112 exactly these responses with these bodies: there is no other reading of the bytes.", "quantifier": "for all lists of responses (to requests other than HEAD and CONNECT) and bodies of any number and size and all readings of the bytes by RFC 9112", "why_tests_cant": "Response splitting is a second reading of the same bytes by another program; excluding it is a claim about all ways to cut an unbounded stream.", "anchors": ["src/http/response.rs:691-698", "src/http/response.rs:778-791", "src/helper.rs:409-416"]}
{"id": "C138", "title": "A conforming WebSocket peer hears the messages that were sent", "statement": "Messages that are written with write_to one after the other, masked as the peer expects, are for a peer that follows RFC 6455 exactly these messages: there is no other reading of the bytes, also not as fragments.", "quantifier": "for all lists of messages and masks of any number and size (below 2^63 octets) and all readings of the bytes by RFC 6455", "why_tests_cant": "Tests read what was written with the reader of the same crate, which takes frames and codes that RFC 6455 forbids; that there is no other reading is a claim about all ways to cut an unbounded stream into frames and messages.", "anchors": ["src/ws/dataframe.rs:153-190", "src/ws/frame_header.rs:34-67", "src/ws/message.rs:133-173"]}
{"id": "C139", "title": "This crate and a conforming server agree on the requests on a connection", "statement": "Whatever bytes a server that follows RFC 9112 hears as a sequence of requests, a server that reads them with this crate, taking each body as is_chunked and get_body_len say, hears as the same requests with the same bodies.", "quantifier": "for all byte streams that are requests by RFC 9112 (grammar, 6.3 and 7.1), of any number and size, and all states of the reused request object", "why_tests_cant": "Request smuggling is a disagreement of two readers about the same bytes; tests know one reader. Agreement is a claim about all streams, by induction over the requests.", "anchors": ["src/http/request.rs:536-640", "src/http/header.rs:222-233", "src/http/header.rs:243-249", "src/http/value.rs:132-164", "src/helper.rs:367-395", "src/helper.rs:316-329", "src/helper.rs:392-407"]}
{"id": "C140", "title": "This crate and a conforming client agree on the responses on a connection", "statement": "Whatever bytes a client that follows RFC 9112 hears as a sequence of responses (to requests other than HEAD and CONNECT), a client that reads them with this crate, taking each body as is_chunked and get_body_len say, hears as the same responses with the same bodies.", "quantifier": "for all byte streams that are responses by RFC 9112 (grammar, 6.3 and 7.1), of any number and size, and all states of the reused response object", "why_tests_cant": "Response splitting is a disagreement of two readers about the same bytes; tests know one reader. Agreement is a claim about all streams, by induction over the responses.", "anchors": ["src/http/header.rs:222-252", "src/http/response.rs:700-735", "src/helper.rs:316-329", "src/helper.rs:392-407"]}
{"id": "C141", "title": "What a conforming WebSocket peer sends is heard as the same messages", "statement": "Whatever bytes a peer that follows RFC 6455 sends as a sequence of messages, whole or in fragments, with control messages between the fragments, a receiver that reads frames with this crate and puts the frames of a message together with Message from frames takes to the last byte, gets the same messages in the same order, holds no fragment, and gets nothing else.", "quantifier": "for all byte streams that are messages by RFC 6455 (5.2, 5.4, 5.5, 5.6, 7.4), masked or not, of any number, size and number of fragments, and all numbers of frames asked for", "why_tests_cant": "Fragments and control messages can be interleaved without bound; tests try some orders. That all are taken and read as one sequence only is an induction over the stream.", "anchors": ["src/ws/frame_header.rs:70-125", "src/ws/dataframe.rs:37-86", "src/ws/message.rs:187-243"]}
{"id": "C142", "title": "Only what a conforming WebSocket peer would send is heard", "statement": "Whatever bytes a receiver that reads frames with this crate takes to the last byte as a sequence of messages are, by RFC 6455, the same messages for an endpoint whose peer has to mask (or must not).", "quantifier": "for all byte streams, all numbers of frames and fragments, and both directions (masked or not)", "why_tests_cant": "It is a claim about every stream that is taken, including those nobody thought to send; tests show that some bad streams are refused.", "anchors": ["src/ws/frame_header.rs:70-125", "src/ws/dataframe.rs:37-86", "src/ws/message.rs:187-243"]}
