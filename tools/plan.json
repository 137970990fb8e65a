{
 "C01": "Model `encode_integer_into` and `decode_integer` octet by octet on `Nat`; round-trip by induction on the base-128 continuation octets. Above the limit: prove `TooManyOctets`.",
 "C02": "Same model; induction over the continuation octets with an explicit suffix.",
 "C03": "Model table, 64-bit accumulator encoder and bit-by-bit decoder. Prove the accumulator loop equals 'concatenate the code bits, pad with ones' (loop invariant), prove prefix-freeness of the whole 257-entry table by `decide +kernel`, then induct over symbols.",
 "C04": "False as stated: EOS decodes as byte 0 (witness `ff ff ff ff`). Negation proved, plus `_partial`: every accepted string is the canonical encoding when the symbol sequence has no EOS.",
 "C05": "Model `encode_lower` separately from `encode`; prove it decodes to the lower-cased string.",
 "C06": "Invariant by induction over operation histories, panic as explicit outcome.",
 "C07": "`consolidate` refined to 'longest prefix of the newest-first list that fits'.",
 "C08": "Refinement of `get_from_index` to one appended list; static part compared with a separately typed RFC 7541 table. False at index 15 (`accept-` instead of `accept-charset`, an entry whose header name is wrong): negation + `_partial` for all other indices.",
 "C09": "Simulation relation between encoder and decoder tables (equal up to ASCII case), induction over headers and over blocks. False in general: index >= 127 is mis-decoded by `decode_indexed`, and `find_header` confuses names such as `x^`/`x~`. Negations with witnesses, `_partial` under exactly the guards that exclude them.",
 "C10": "Step relation of the decode loop. False: a dynamic table size update consumes nothing, so the loop never ends; prove that from such a state no number of steps finishes, and `_partial`: otherwise every step consumes at least one byte, hence termination within input length.",
 "C11": "Induction on the steps of the first block; the second block as suffix (suffix independence of all sub-decoders).",
 "C12": "Case analysis over the step; table invariant preserved.",
 "C13": "Big-endian arithmetic lemmas; kind and flag finite.",
 "C14": "Direct; the unknown-flag clause is false (BadFlag on e.g. 0x02), negation + `_partial`.",
 "C15": "Big-endian lemmas per frame.",
 "C16": "False: length field is 0 and the exclusive bit is dropped. Negations + `_partial` (payload round-trips for non-exclusive dependencies).",
 "C17": "Seven optional fields; encoding as list of six-byte records, fold.",
 "C18": "Refine the parse loop to a fold over the decoded (id,value) list; 'last value wins' spec.",
 "C19": "Recursion on the remaining body; max size 0 is the divergent case, modelled with fuel and proved to never finish.",
 "C20": "False: padding bytes are left in the payload. Negation + `_partial` (unpadded and zero-padding frames, over-long padding rejected). Props/SplitExact.lean: the answer for every padded DATA frame, and when it is right.",
 "C21": "Model `HeaderBlock::encode`; prove concatenation, stream id, END_HEADERS placement; negations for END_STREAM placement and frame size bound, `_partial`. Props/SplitExact.lean: exactly when the claim holds of a call (octets have one reading as frames), and how far the limit can be missed.",
 "C22": "Built on C09 and C35. Parts are not written (negation), `_partial` for fields. Props/SplitExact.lean: exactly which frames are read back.",
 "C23": "Fold invariant in `Headers::parse`.",
 "C24": "Induction on number of calls, overflow panic explicit.",
 "C25": "Induction over the frame list using C13, C15, C17.",
 "C26": "Case split on the three length encodings.",
 "C27": "Inversion of `read_header`.",
 "C28": "Induction with key rotation. `inner_put_slice` of the external buffer crate assumed to append.",
 "C29": "C26 + C28 + suffix reasoning.",
 "C30": "Length computation; `write_to` returns 0 (negation), `_partial` for frame_size.",
 "C31": "Direct.",
 "C32": "Induction over the fragments. UTF-8 validity is modelled concretely.",
 "C33": "C29 + C32.",
 "C34": "Finite table, arithmetic.",
 "C35": "Abstraction to a function from lower-cased name to value; induction over histories. False for names with bytes such as `^`/`~` because of C36: negation, `_partial` for names over the token alphabet without such pairs.",
 "C36": "False ('@' equals '`', not transitive, unequal hashes). Negations, `_partial` for names whose non-letter bytes do not collide.",
 "C37": "False for values with CR LF or leading spaces (negations), `_partial` for names over tchar and values without CR and leading space.",
 "C38": "Suffix/prefix lemmas for every combinator ('if accepts x++y after consuming all of x++y then on x gives Partial').",
 "C39": "Suffix-independence lemma for every combinator.",
 "C40": "C37 + status table.",
 "C41": "Composition of the parser lemmas of C37 and C49; exact iff for clean headers.",
 "C42": "Hex printing/reading lemmas; `from_str_radix(..).unwrap()` overflow panics: negation + `_partial`.",
 "C43": "Fold model with 64-bit overflow made explicit. False (overflow on the last digit panics or wraps; `--5`, `0-5` accepted): negations + `_partial`.",
 "C44": "Arithmetic; CODE_DIGITS table by kernel computation over all 900 entries.",
 "C45": "Finite names; inversion for all strings.",
 "C46": "Induction over bytes; 256-entry map by kernel computation.",
 "C47": "Independent inductive grammar of escapes; equivalence by induction.",
 "C48": "`_partial` for the class of URLs whose text is unambiguous; negations for the rest.",
 "C49": "Invariant of the state machine loop.",
 "C50": "Case analysis.",
 "C51": "Case analysis. FromStr upper-cases first (negation for that entry point).",
 "C52": "Type identifiers abstracted as a key type with decidable equality; refinement to a function.",
 "C53": "Refinement to `List` infix.",
 "C54": "HTTP/1: encoders as functions on the buffer with an explicit size counter, `Honest` by composition. HTTP/2: induction over rounds and fragments.",
 "C55": "Flag as model state.",
 "C56": "State machine loop with the authority as prefix; compare with the same text cut before the path. False: negation with witness, `_partial` without @ after the authority.",
 "C57": "Case analysis; negation, and a theorem that it never gives a known scheme.",
 "C58": "Case split over the kinds; exact condition for a panic; table invariant preserved. Negation by a DATA frame on stream 0.",
 "C59": "Panics are explicit in the model; each helper is shown not to reach one, then composed.",
 "C60": "Outcome of a parse does not depend on the state it starts from, by following the parser; histories by a fold.",
 "C61": "base64 as a relation on bits (RFC 4648) proved equal to the modelled coder; then C17/C18 for the payload.",
 "C62": "Separate reading of the target (Spec/Target) and the URL parser's lemmas; negations by concrete requests.",
 "C63": "The conversion as a chain of builder calls (C64); the URL through the reading of URL texts of C49; negation by a concrete frame.",
 "C64": "Induction over the chain of calls; header maps through C35.",
 "C65": "Lookup after insertion, for all header maps.",
 "C66": "RFC 7541 as a relation between octets, representations and meanings, written without the code; induction over the representations of a block.",
 "C67": "Same relation as C66, uniqueness of readings, induction over headers and blocks.",
 "C68": "Inversion of the decoder step by step against the relation of C66.",
 "C69": "Spec/Pieces.lean states the reading caller `feed`. Every reader of the head chain is shown `Final` (an error other than Partial is kept by every continuation) compositionally, next to `Streams` (an answer ok is kept); induction on the pieces with C60's independence of the object.",
 "C70": "False: word targets, half escapes and stray control bytes after the version or reason answer Partial for every continuation (proved by Streams step by step). Partial: for printable heads with LF after each CR (and, for requests, a target beginning with / and no %), a continuation is constructed reader by reader (`Helps`).",
 "C71": "Spec/Conversation.lean states the receiving caller (`receive`, `converse`) and what a framed body is. Induction on the messages over C38-C43 (head exactness, body length, chunk round trip and truncation).",
 "C72": "False: the search is for one spelling and for substrings. Partial: equal to list membership when the option is spelled as the code expects and no other element contains the word, by showing that a word without commas and spaces occurs in a value iff it occurs in one of its elements. Props/OptionsExact.lean: what is recognised, in terms of the elements of the list.",
 "C73": "Spec/Grammar.lean writes down the grammar. False in five ways, two of them proved for every head of the kind (no reason: error; unregistered method: error). Partial theorems: every head with a plain reason is accepted with its raw lines (through C74's exact language), equal to the RFC meaning when blanks are tidy and names distinct, last line wins otherwise.",
 "C74": "False: NUL and LF in values, space before the colon, space as a line end. The exact accepted language is stated as a grammar (AcceptedResponse, AcceptedRequest) and proved to be the parser's language by inverting and replaying every reader (iff).",
 "C75": "Spec/Rfc9113.lean gives the meaning of every frame without a header block as a relation (FrameMeans) and, separately, the relation the code implements (FrameTaken). The latter is proved to be exactly what readFrame does; the former is proved to be exactly what it does outside named exceptions; each exception is proved to be one for all frames of its form.",
 "C76": "Model/FrameAccess.lean; every frame read is one of the three forms of readFrame_cases; the value of each accessor follows. The setters are checked on all 256 bytes by the kernel.",
 "C77": "The parser is proved to skip the header block whatever it is (so the request is always lost and the table never changes) while the ids survive; a connection of three frames is the witness that a later HEADERS frame can not be read.",
 "C78": "Model/PartsRequest.lean: Parts::request and Parts::response. Exact result of the receiver for plain paths, the exact condition (iff) for the URL to survive, universal violations for every URL with a port other than the default or a query.",
 "C79": "Model/SettingsApi.lean: the setters and questions. Spec/SettingsApi.lean: the last call about each setting. Induction over the calls; exact condition for the peer to take the frame.",
 "C80": "Model/HeaderVariants.lean models names, values and the map with their variants; it is proved to refine the byte-only model used by the other claims (C80_refines), from which equality of answers follows except for the length of the body.",
 "C81": "Spec/Chunk.lean has the grammar. The accepted language and the language called incomplete are both proved exactly (iff); differences from the grammar are proved for all chunks of each form.",
 "C82": "Spec/WsConnection.lean describes what is sent and a receiver that reads frames, hands control messages over at once and collects the fragments of a data message. Induction over the connection and over the frames of a message.",
 "C83": "Model/WsReader.lean models the reader with its state on failure; Spec/Rfc6455.lean has the frames. The accepted language is proved exactly (iff), with violations for all frames of each wrong form.",
 "C84": "Spec/Rfc6455.lean has the messages of sections 5.4, 5.5 and 7.4. The lists accepted are proved exactly (iff), with violations for all lists of each wrong form.",
 "C85": "Model/WsReader.lean keeps what the reader has consumed when it fails. Prefix induction over the header; the retry is proved to fail for every frame cut after its first byte.",
 "C86": "Model/HexText.lean and the relation HexText of Spec/HexText.lean. The texts converted and the result are proved exactly (iff), and the panics.",
 "C87": "Model/UrlBuilder.lean. Induction over the calls for the parts (iff) and the error (iff); the text form by the round trip of C48 generalised to URLs without a port.",
 "C88": "Model/Display.lean has the four Display implementations, Spec/Utf8.lean RFC 3629 as a relation, to which the model of from_utf8 and from_utf8_lossy is proved equal. Exact condition (iff) for equality of the two forms; the printed form is UTF-8; a printed response is read back.",
 "C89": "Model/WsMessage.lean has both types and their conversions. Exact condition (iff) for the wire form to survive, and the constructors and questions for all messages.",
 "C90": "Spec/Rfc9113Connection.lean describes the receiver from the RFCs as a relation, proved to have one reading for every octet string. Induction over the connection with the invariants of the encoder's table, using the RFC 7541 reading of header blocks (C67) and the frames of C15, C17, C19 and C75.",
 "C91": "On top of C90: the list heard is determined, so the order can be decided for every message (iff).",
 "C92": "Same receiver as C90 with PUSH_PROMISE frames. What is heard is proved exactly, for every promise and table.",
 "C93": "Spec/Rfc9113Peer.lean says what a header list means by RFC 9113 8.2 and 8.3 and RFC 9110 5.3, on the receiver relation of C90. Induction over the conversation with the decoder's table in step with that of RFC 7541; exact account of what is kept of a header list.",
 "C94": "Exact condition (iff) for a header list to be accepted and exact account of the frame that results, for every block that decodes; counterexamples for all names and values.",
 "C95": "The fields of a received frame are a history of insertions with names and values from the header list, so that the exact condition of C37 applies.",
 "C96": "Spec/BodyKind.lean gives RFC 9112 6.3 on the field lines of the grammar of C73. Exact account of the two questions in terms of the last line of each name, then agreement for the well-behaved heads and counterexamples for all lengths.",
 "C97": "Model validate_request on the request of C40; spec from the method tables of RFC 9110 and the Content-Length header; exact condition (iff).",
 "C98": "What can come out of the reader is known from C75/C76; show that it is in the domain of the round trips C15-C25, or that the result cannot be the same frame, for all frames of the kind.",
 "C99": "The models of the decoder and of HEADERS frames as they are. By induction over the rounds of the decoder: each round that yields a field consumes at least one byte; a field from a table has at most the size of the table, a string has at most 8/5 times the bytes it is written in (no code word is shorter than 5 bits), and a name at most 3 times that (an ill-formed byte becomes the three bytes of U+FFFD).",
 "C100": "Model/Copies.lean: whole messages (head, systems, extensions, body), generic in the type of extension keys, in the values and in the body. The extensions are those of Model/Extensions.lean; what can be seen of two messages is compared (Spec/Copies.lean).",
 "C101": "Model/MapIndex.lean: index and index_mut, the latter as the map after a given change through the reference. Induction over the map; a map either has no header of the name or splits at the first.",
 "C102": "Model/Answers.lean adds new, pong, ret_pong and Serialize of Ping to the frame model. Inverting the reader gives exactly the streams from which a PING is read; the round trip is C15.",
 "C103": "Model/Answers.lean: parse, encode and serialize of the number types and Serialize of Frame. Arithmetic on big-endian numbers; for frames, every encoding has at least the nine bytes of a frame header.",
 "C104": "is_partial over the errors of the existing readers; the prefixes of heads and chunks are C38 and C42, those of WebSocket frames C85.",
 "C105": "Spec/ResponseBody.lean states 6.3 as a function of the field lines; response heads by grammar (IsResponseHead of Spec/Http1), the accepted headers by C73.",
 "C106": "Model/UrlEq.lean. One spelling is canonical (Spec/UrlEq.lean): kept characters stand for themselves, all others are escaped in upper case. The parser is characterised by C49, Display by C46 and C48.",
 "C107": "Model/ReadyMade.lean: the constructors as calls of the response builder of C64. Receiving is receive of Spec/Conversation.lean, as for C62.",
 "C108": "Spec/Forward.lean. into_request as a run of the builder by C63, its framing fields by C64, the head by C41 and C39, the body by receive of Spec/Conversation.lean.",
 "C109": "Spec/Rewrite.lean: percent-escapes of any text. Accepted heads by C74, what is written by http1_data, read again by C37, C41 and C71.",
 "C110": "Model/Reason.lean. The table of RFC 9113 section 7 in Spec/Reason.lean; the hexadecimal numerals by hexLower_spec.",
 "C111": "Model/Reason.lean; a queue is any that empties in an order the comparison allows (Spec/Reason.lean, Emptied).",
 "C112": "Model/Preface.lean; the octets of RFC 9113 3.4 in Spec/Preface.lean. The first word by skipEmptyLines_iff and parseToken_eq, accepted heads by C74.",
 "C113": "Spec/Bulk.lean counts the bytes. URLs: an invariant of the loop, one byte at most per byte read, and decoding never lengthens. Messages from the exact grammars of C74; lossy decoding at most triples. Chunks and frames from C81 and C83.",
 "C114": "Props/Normal.lean. Positive part from C48 after moving a ? from the path into the query; exactness from C106; a family of texts escaped k times for the negative part.",
 "C115": "Model/AfterError.lean: the decoder's table after a call whatever its verdict. Props/AfterError.lean: independence of the limits by induction over the frames; with C66 and the description of the accepted header lists (C94) the verdict on each frame.",
 "C116": "Model/UpperCase.lean: `to_uppercase` character by character, any mapping that has the stated values into ASCII. Props/UpperCase.lean: which texts have an ASCII word as their upper case, by induction over the text.",
 "C117": "Spec/Authority.lean: when a text names host and port. Props/Authority.lean: exactly the URLs with a scheme; round trip through Url::parse; all accepted requests but CONNECT; every CONNECT request fails.",
 "C118": "Spec/MethodContent.lean: the rules of RFC 9110, section 9.3. Props/MethodContent.lean: the exact methods for which the code agrees.",
 "C119": "Spec/ByteClass.lean: the classes as the RFCs list them. Props/ByteClass.lean: comparison over all bytes by the kernel; the exact difference where they disagree.",
 "C120": "Spec/NeverIndexed.lean: what it means to keep the mark, over the representations of Spec/Rfc7541.lean. Props/NeverIndexed.lean: every block the encoder writes has only indexed fields and literals with incremental indexing (by induction, and a block has one reading), so no mark survives; the decoder itself stores nothing but also reports no mark.",
 "C121": "Spec/TableResize.lean: histories of sending and resizing; the peer is the decoder of Spec/Rfc7541.lean. Props/TableResize.lean: by induction over the history, this side's table is a prefix of the peer's as long as no size exceeds the first; a field that does not fit in the peer's table for the other direction.",
 "C122": "Spec/SharedIndex.lean: histories of sending and receiving; the code with one table; the peer with the two tables of Spec/Rfc7541.lean. Props/SharedIndex.lean: by induction over the history if the peer stores nothing; for the other direction two histories of three steps, for all fields of new names.",
 "C123": "Model/EncoderThreads.lean: a step is one holding of the lock: the lookup with the bytes it leads to, or the insertion; a schedule is any list of thread numbers. Spec/EncoderThreads.lean: all are done; some order of the blocks is heard. Props/EncoderThreads.lean: an invariant over the schedule (what is written so far, ordered by insertion, is read by an RFC 7541 decoder); a schedule of seven steps that tears two blocks, for all fields of new names.",
 "C124": "Spec/BlockSize.lean: octets of an integer (RFC 7541 5.1), bits of a text in the Huffman code, with headerListSize of Spec/Frame.lean. Props/BlockSize.lean: exact length of integers and strings by induction, a bound for each kind of representation, sums over the list by induction.",
 "C125": "Spec/Repeats.lean: fields of the static table, blocks that are one index in the grammar of Spec/Rfc7541.lean. Props/Repeats.lean: what the lookup gives in each case, uniqueness of the reading of a block, induction over the number of times.",
 "C126": "Spec/PushedValue.lean: lists of RFC 9110 from Spec/Options.lean, parts between semicolons. Props/PushedValue.lean: the value after any number of pushes by induction, a count of semicolons that splitting and trimming do not change.",
 "C127": "Model/UncheckedText.lean: the bytes given to the conversion, following the parsers step by step. Props/UncheckedText.lean: cutting UTF-8 at ASCII characters, invariant over the lines of a head, RFC 3629 from Spec/Utf8.lean. Props/UncheckedExact.lean: the converse, by following what each reader consumes.",
 "C128": "Spec/Lossy.lean: the text of bytes by maximal subparts, from the code points of Spec/Utf8.lean and without the model of the standard library. Proofs/Lossy.lean: the model makes this text and it is the only one. Props/Lossy.lean: each function of the API, and exactly which bytes are told apart.",
 "C129": "Model/FullParse.lean: requests and responses with all their fields. Props/FullParse.lean: what is left after a parse, for every input, and exactly when it is that of a new object.",
 "C130": "Model/MapEq.lean: the derived comparison, with the system values. Props/MapEq.lean: compared with the abstract map of C35 by induction over the operations.",
 "C131": "Model/MapIter.lean: going through the map with any change. Props/MapIter.lean: which maps can be reached, and exactly when removing and writing do as said; induction over the map and over histories.",
 "C132": "Model/HeaderCost.lean: the loops of insert and parse_header with a count. Props/HeaderCost.lean: the exact count for lines with different names, by induction, and names of two letters for which it outgrows every multiple of the length.",
 "C133": "Spec/WsSender.lean: the payloads that each type of message may have. Props/WsSender.lean: exactly what is written, and exactly which of it may be sent, from the bytes of RFC 6455 5.2.",
 "C134": "Spec/WrittenHead.lean on the grammar of Spec/Grammar.lean (RFC 9112 alone). Props/WrittenHead.lean: exact conditions, and by induction over the field lines that there is no other reading.",
 "C135": "Spec/WrittenChunks.lean: chunked-body of RFC 9112 7.1 as an inductive relation. Props/WrittenChunks.lean: existence and uniqueness of the reading by induction over the pieces.",
 "C136": "Spec/RequestStream.lean: a stream of requests by RFC 9112 as an inductive relation over Spec/Grammar, Spec/BodyKind and Spec/WrittenChunks. Props/RequestStream.lean: existence and uniqueness of the reading by induction over the requests.",
 "C137": "Spec/ResponseStream.lean: a stream of responses by RFC 9112 as an inductive relation over Spec/Grammar, Spec/ResponseBody and Spec/WrittenChunks. Props/ResponseStream.lean: existence and uniqueness of the reading by induction over the responses.",
 "C138": "Spec/WsStream.lean: a stream of messages by RFC 6455 5.4 as an inductive relation with the fragments held. Props/WsStream.lean: exact, by induction over the messages.",
 "C139": "Spec/Agreement.lean on Spec/RequestStream (RFC 9112) and Spec/Conversation (a caller of this crate). Props/Agreement.lean: induction over the requests from C73, C81 and C96.",
 "C140": "Spec/AnswerAgreement.lean on Spec/ResponseStream (RFC 9112) and Spec/Conversation (a caller of this crate). Props/AnswerAgreement.lean: induction over the responses from C73, C81 and C105.",
 "C141": "Spec/WsStream.lean: streams by RFC 6455 5.4 (as for C138); Spec/WsConnection.lean: the receiver (as for C82). Props/WsAgreement.lean: induction over the stream with the frames held as invariant, then uniqueness.",
 "C142": "Spec/WsStream.lean and Spec/WsConnection.lean as for C141. Props/WsAgreement.lean: the exact condition, by induction over the frames read with the fragments held as invariant, both ways."
}