# Formal model of webparse: design

The code under study is /repo (crate `webparse`, Rust), read as text, never built.
The model and proofs are Lean 4 under `lean/Verif`.

## Layout

* `Verif/Model/*.lean`: the model. One definition per Rust function, each with a comment citing file and lines.
* `Verif/Spec/*.lean`: small independent specifications (RFC tables, abstract maps, grammars).
* `Verif/Proofs/*.lean`: lemmas.
* `Verif/Props/*.lean`: the property theorems, named `Cnn_...`, with examples that meet their hypotheses.

## Modelling conventions

* Bytes are `UInt8`, byte strings `List UInt8`. A reader (`Bt`) is the list of bytes not yet read. A writer (`BtMut`) is the list of bytes written.
* `&mut` parameters become returned values. `Result` becomes `Res.ok` / `Res.err`; every reachable `panic!`, `unwrap`, `assert!`, index or arithmetic overflow becomes `Res.panic`.
* `usize` is 64 bits wide. Where a wrap or overflow can matter the bound is explicit.
* Loops are structural recursion. A loop that may not end is modelled as a step function, and non-termination is a theorem about all step counts.
* Rust `String`/`&str` are byte strings; validity of UTF-8 is an explicit predicate where the code checks it. That predicate, and the replacement done by `from_utf8_lossy`, are models of the standard library; the predicate is proved equal to RFC 3629 (`utf8Valid_iff`, Spec/Utf8.lean), and lossy conversion is proved to give UTF-8 and to leave exactly UTF-8 unchanged.

## Trusted base

* Lean 4 kernel and the axioms `propext`, `Classical.choice`, `Quot.sound` (see the axiom table at the end).
* The reading of /repo: the theorems are about the model.
* External crates, assumed: `algorithm::buf` (reads consume from the front, `chunk()` exposes all remaining bytes, `put_*` append big-endian and return the byte count, `get_*` big-endian, `try_get_*` fail when short, `inner_put_slice` appends, and the default `put_u16` of the trait goes through `put_slice`, so that `Masker` masks it); `bitflags` (`from_bits` rejects unknown bits, `from_bits_truncate` drops them); `base64` (engine `URL_SAFE_NO_PAD`, modelled in `Model/HttpSettings.lean` from RFC 4648); `std` (`HashMap`, `Vec`, `VecDeque`, `from_utf8`, `from_utf8_lossy`, integer parsing and formatting).
* A `HashMap` lookup finds a key exactly when the key hashes and compares equal; accidental 64-bit hash collisions are not modelled.

## Not modelled

* Locks and `Arc` (only C123 has threads: each lock is held for the lines of one step, and the steps of the threads are interleaved in any way; memory ordering and the lock itself are trusted), logging, `Debug` output other than that of error reasons (C110), allocation, running time (C132 counts comparisons of names only).
* Trait plumbing (`TryFrom` blanket uses, builders' generic parameters) beyond the conversions named in the properties.

## Modelled code

Which definition of the model stands for which lines of /repo, from the comments of the
definitions, which also say where one is simplified.

`Verif/Model/AfterError.lean`

* src/http/http2/frame/frame.rs: `Frame.tableAfter` (155-187)
* src/http/http2/frame/headers.rs: `HeadersFrame.tableAfter` (129-175)
* src/http/http2/hpack/decoder.rs: `decodeSoFar` (115-175)

`Verif/Model/Answers.lean`

* src/error.rs: `Error.isPartial` (45-50)
* src/http/http2/frame/frame.rs: `Frame.serialize` (205-213), `Frame.encodedLen` (190-193)
* src/http/http2/frame/mod.rs: `streamIdEncode` (80-83), `streamIdParse` (51-56), `readU64` (110-116), `readU24` (129-135), `encodeU24` (137-143), `sizeIncrementParse` (149-151), `sizeIncrementEncode` (153-163), `errorCodeParse` (175-178), `errorCodeSerialize` (181-186)
* src/http/http2/frame/ping.rs: `Ping.new` (38-43), `Ping.pong` (45-47), `Ping.retPong` (49-54), `Ping.serialize` (117-122)

`Verif/Model/Basic.lean`

* src/error.rs: `Error` (18-27)

`Verif/Model/Builder.lean`

* src/http/http2/frame/headers.rs: `Parts.buildUrl` (587-599), `RequestBuilder.methodOpt` (278-280), `HeadersFrame.intoRequest` (274-283), `ResponseBuilder.methodOpt` (287-289), `ResponseBuilder.statusOpt` (290-292), `HeadersFrame.intoResponse` (285-295)
* src/http/request.rs: `RequestBuilder` (44-47), `RequestBuilder.new` (345-352), `RequestBuilder.andThen` (335-342), `RequestBuilder.method` (104-114), `RequestBuilder.methodIs` (104-114), `Request.putUrl` (153-156), `RequestBuilder.url` (147-160), `RequestBuilder.urlIs` (147-160), `RequestBuilder.version` (190-195), `RequestBuilder.header` (227-238), `HeaderMap.insertAll` (243-245), `RequestBuilder.headers` (241-248), `RequestBuilder.upgradeHttp2` (325-333), `HeaderMap.insertMissing` (303-306), `RequestBuilder.body` (298-313), `RequestBuilder.fromReq` (67-90), `Request.setUrl` (385-393), `Request.getHost` (669-674)
* src/http/response.rs: `HeaderMap.insertAll` (154-156), `HeaderMap.insertMissing` (284-287), `ResponseBuilder` (44-47), `ResponseBuilder.new` (317-324), `ResponseBuilder.andThen` (307-314), `ResponseBuilder.status` (82-91), `ResponseBuilder.statusIs` (82-91), `ResponseBuilder.method` (93-98), `ResponseBuilder.version` (114-119), `ResponseBuilder.header` (138-149), `ResponseBuilder.headers` (152-159), `ResponseBuilder.body` (282-294)

`Verif/Model/Copies.lean`

* src/http/header.rs: `FullRequest` (24-28)
* src/http/request.rs: `FullRequest` (25-42), `Extensions.cloneFor` (732-749), `FullRequest.replaceClone` (652-661), `FullRequest.into` (518-525)
* src/http/response.rs: `FullResponse` (24-42), `Extensions.cloneFor` (758-775), `FullResponse.replaceClone` (726-735), `FullResponse.into` (657-664), `FullResponse.throughParts` (621-623), `FullResponse.throughParts` (424-430), `FullResponse.serialize` (779-792), `FullResponse.intoBinary` (675-684)
* src/serialize.rs: `binarySerialize` (52-58)

`Verif/Model/Display.lean`

* src/http/header.rs: `HeaderMap.display` (366-376)
* src/http/request.rs: `Request.display` (703-717)
* src/http/response.rs: `Response.display` (793-806)
* src/http/status.rs: `statusDisplay` (226-235)
* src/http/value.rs: `HeaderMap.display` (98-105)

`Verif/Model/EncoderThreads.lean`

* src/http/http2/hpack/encoder.rs: `EncoderThread` (42-63), `EncoderThread.step` (65-92)

`Verif/Model/Extensions.lean`

* src/extensions.rs: `AnyBox` (18), `AnyMap` (18), `AnyMap.get` (101, 120), `AnyMap.insert` (77), `AnyMap.remove` (140), `AnyBox.downcast` (78-83, 102, 121, 141-146), `Extensions` (47-51), `Extensions.new` (56-58), `Extensions.insert` (73-84), `Extensions.get` (98-103), `Extensions.modify` (117-122), `Extensions.remove` (137-147), `Extensions.clear` (162-166), `Extensions.isEmpty` (180-184), `Extensions.len` (198-202), `Extensions.extend` (227-235)

`Verif/Model/Frame.lean`

* src/http/http2/frame/data.rs: `DataFrame` (19-25), `DataFrame.new` (28-37), `DataFrame.encodeRun` (93-112)
* src/http/http2/frame/flag.rs: `flagMask` (13-22), `flagNew` (28-33), `flagIsEndStream` (40-51), `flagIsEndHeaders` (55-57), `flagIsPadded` (67-69), `flagIsPriority` (79-81), `flagSetEndHeaders` (58-60), `flagSetEndStream` (82-84), `flagUnsetEndStream` (85-87)
* src/http/http2/frame/frame.rs: `FrameHeader` (29-35), `FrameHeader.parse` (226-241), `FrameHeader.encode` (259-267)
* src/http/http2/frame/go_away.rs: `GoAway` (20-25), `GoAway.parse` (60-74), `GoAway.head` (76-80), `GoAway.encode` (82-89)
* src/http/http2/frame/kind.rs: `Kind` (15-27), `Kind.ofByte` (30-44), `Kind.encode` (46-60)
* src/http/http2/frame/mod.rs: `readU31` (120-127), `nextId` (70-74)
* src/http/http2/frame/ping.rs: `Ping` (23-27), `Ping.parse` (69-98), `Ping.head` (99-104), `Ping.encode` (106-113)
* src/http/http2/frame/priority.rs: `StreamDependency` (24-36), `Priority` (18-22), `StreamDependency.load` (99-111), `Priority.parse` (39-50), `StreamDependency.encode` (117-121), `Priority.encode` (72-79)
* src/http/http2/frame/reset.rs: `Reset` (19-23), `Reset.parse` (41-52), `Reset.head` (54-58), `Reset.encode` (60-66)
* src/http/http2/frame/settings.rs: `Settings` (24-36), `Setting` (38-70), `Setting.fromId` (105-118), `Setting.encode` (127-143), `Settings.apply` (236-277), `Settings.parseLoop` (234-278), `Settings.parseSetting` (223-280), `Settings.ack` (147-152), `Settings.parse` (282-303), `Settings.forEach` (349-379), `Settings.payloadLen` (305-309), `Settings.encode` (334-347)
* src/http/http2/frame/window_update.rs: `WindowUpdate` (21-25), `WindowUpdate.parse` (44-64), `WindowUpdate.head` (66-70), `WindowUpdate.encode` (72-79)

`Verif/Model/FrameAccess.lean`

* src/http/http2/frame/flag.rs: `flagUnsetEndHeaders` (61-63), `flagSetPadded` (70-72), `flagUnsetPadded` (73-75), `flagLoad` (35-38)
* src/http/http2/frame/frame.rs: `Frame.streamIdOf` (78-90), `Frame.flagsOf` (92-104), `Frame.isHeader` (106-111), `Frame.isData` (113-118), `Frame.isEndHeaders` (120-125), `Frame.isEndStream` (127-134)

`Verif/Model/FrameHeaders.lean`

* src/http/http2/frame/frame.rs: `Frame` (37-48), `trimPadding` (51-62), `wrapFrame` (155-187), `Frame.parse` (155-187), `Frame.encode` (136-151)
* src/http/http2/frame/headers.rs: `Parts` (62-72), `HeadersFrame` (31-43), `HeadersFrame.addField` (147-169), `HeadersFrame.addFields` (141-172), `HeadersFrame.loadDep` (135-138), `HeadersFrame.parse` (129-175), `insertOpt` (570-584), `Parts.encodeHeader` (569-585), `blockFragments` (610-622), `continuationFrames` (634-646), `fragmentFrames` (624-648), `blockEncode` (602-650), `HeadersFrame.encode` (297-303), `PushPromise` (45-58), `PushPromise.parse` (444-455), `takeHeader` (467-482), `PushPromise.encode` (461-497)
* src/http/name.rs: `isSpec` (112-117)

`Verif/Model/FullParse.lean`

* src/http/header.rs: `FullRequest.parseBuffer` (102-104)
* src/http/request.rs: `FullRequest.parseBuffer` (552-598), `FullRequest.fresh` (355-361)
* src/http/response.rs: `FullResponse.parseBuffer` (706-720), `FullResponse.fresh` (400-406)

`Verif/Model/HeaderCost.lean`

* src/helper.rs: `parseHeaderCost` (367-390), `headerComparisons` (367-390)
* src/http/header.rs: `HeaderMap.insertCost` (82-87)

`Verif/Model/HeaderMap.lean`

* src/helper.rs: `containsBytes` (464-474)
* src/http/header.rs: `HeaderMap` (24-28), `HeaderMap.insert` (69-90), `HeaderMap.push` (46-67), `HeaderMap.remove` (92-100), `HeaderMap.clear` (102-104), `HeaderMap.contains` (106-114), `HeaderMap.get` (141-149), `HeaderMap.getValue` (116-124), `HeaderMap.getStr` (151-159), `containsBytes` (299-309), `HeaderMap.isContains` (161-169), `HeaderMap.isEqual` (171-179), `HeaderMap.isKeepAlive` (235-241), `HeaderMap.isChunked` (243-249), `HeaderMap.upgradeProtocol` (251-265), `HeaderMap.host` (181-196), `HeaderMap.encode` (287-297)
* src/http/value.rs: `valuePush` (59-71), `valueAsString` (52-57), `HeaderValue` (19-23)

`Verif/Model/HeaderVariants.lean`

* src/http/header.rs: `TaggedMap` (23-26), `TaggedMap.insert` (69-90), `TaggedMap.push` (46-67), `TaggedMap.remove` (92-100), `TaggedMap.clear` (102-104), `TaggedMap.contains` (106-114), `TaggedMap.get` (141-149), `TaggedMap.setValue` (126-139), `TaggedMap.assign` (321-331), `TaggedMap.bodyLen` (222-233), `TaggedMap.text` (198-220), `TaggedMap.host` (181-196), `TaggedMap.upgradeProtocol` (251-265), `TaggedMap.encode` (287-297), `TaggedMap.eq` (22), `HeaderQuery` (106-114), `TaggedMap.ask` (106-297)
* src/http/name.rs: `HeaderName` (22-26), `HeaderName.asBytes` (126-131), `HeaderName.bytesLen` (104-109), `HeaderName.isSpec` (112-117), `HeaderName.eq` (46-52), `HeaderName.hashInput` (56-72)
* src/http/value.rs: `HeaderValue.asBytes` (45-50), `HeaderValue.bytesLen` (38-43), `HeaderValue.asString` (52-57), `HeaderValue.push` (57-71), `HeaderValue.contains` (80-82), `HeaderValue.hashInput` (85-96), `HeaderValue.display` (98-105), `HeaderValue.toText` (166-175), `HeaderValue.eq` (209-218)

`Verif/Model/Helper.lean`

* src/helper.rs: `isToken` (34-36), `isStatusToken` (40-42), `isAlpha` (45-53), `isDigit` (58-64), `isHex` (67-77), `toHex` (79-81, 96-97), `convertHex` (84-94), `uriMap` (101-127), `isUriToken` (130-132), `uritransMap` (136-162), `isNotUritrans` (165-167), `headerNameMap` (169-186), `isHeaderNameToken` (189-191), `headerValueMap` (193-210), `isHeaderValueToken` (214-216), `digitByte` (410), `numeralAux` (410), `hexLower` (410), `digitVal` (396), `thenRead` (367-390), `parseTokenEmpty` (246-272), `parseTokenBy` (275-277), `parseHex` (280-282), `parseToken` (285-287), `parseStatusToken` (290-292), `skipNewLine` (316-329), `skipEmptyLines` (331-348), `skipSpaces` (351-364)
* src/http/request.rs: `parseUnsigned` (544)
* src/http/value.rs: `digitByte` (195, 202), `numeralAux` (195, 202), `decimal` (195, 202), `parseUnsigned` (112), `parseSigned` (137)
* src/macros.rs: `byteMap` (13-18), `nextByte` (20-28), `peekByte` (42-50), `expectByte` (53-64)
* src/url/scheme.rs: `schemeMap` (34-58), `isSchemeToken` (59-61)
* src/url/url.rs: `digitVal` (229), `digitsVal` (229), `parseUnsigned` (229)

`Verif/Model/HexText.lean`

* src/helper.rs: `hexNibble` (427, 430), `hexToVecLoop` (424-436), `hexToVec` (418-438)

`Verif/Model/Hpack.lean`

* src/http/http2/hpack/decoder.rs: `decodeString` (238-264), `decodeLiteralName` (274-290), `decodeLiteral` (266-297), `decodeIndexed` (299-310), `FieldRep` (25-31), `fieldRep` (33-52), `decodeStep` (119-172), `decodeStep` (165-169), `decodeRun` (107-175), `decode` (107-113)
* src/http/http2/hpack/encoder.rs: `encodeStringLiteral` (119-128), `encodeStringLiteralLower` (108-117), `encodeLiteral` (94-106), `encodeIndexedName` (130-142), `encodeIndexed` (144-147), `encodeHeader` (65-92), `encodeHeaders` (42-63)
* src/http/http2/hpack/header_index.rs: `Header` (19), `staticTableRaw` (172-234), `staticTable` (237-246), `HeaderIndex` (17-22), `entrySize` (124, 147), `consolidate` (136-151), `addHeader` (123-131), `setMaxTableSize` (112-116), `getFromIndex` (54-72), `staticHash` (247-263), `staticHashFind` (77-80), `findHeader` (74-90)
* src/http/name.rs: `headerNameFromBytes` (168-177)

`Verif/Model/HpackPrim.lean`

* src/http/http2/hpack/decoder.rs: `prefixMask` (197-201), `decodeIntegerTail` (208-229), `decodeInteger` (184-236)
* src/http/http2/hpack/encoder.rs: `prefixMask` (155-159), `encodeIntegerTail` (168-173), `encodeInteger` (149-175)
* src/http/http2/hpack/huffman.rs: `huffEmit` (162-171, 193-202), `huffEncodeLoop` (155-179), `huffEncode` (155-179), `huffEncodeLowerLoop` (181-210), `huffEncodeLower` (181-210), `huffLookup` (479-487), `byteBits` (101-148), `bytesBits` (101-148), `HuffState` (49-70), `huffDecodeBit` (54-74), `huffDecodeBits` (54-74), `huffDecode` (48-89)

`Verif/Model/Http1.lean`

* src/helper.rs: `parseHeaderName` (295-301), `parseHeaderValue` (304-307), `parseHeaderLine` (370-389), `onLine` (367-390), `parseHeaderLoop` (367-390), `parseHeader` (367-390), `onToken` (218-236), `parseMethod` (218-221), `parseStatus` (223-229), `versionOfToken` (233-241), `parseVersion` (231-243), `parseChunkData` (392-407), `encodeChunkData` (409-416)
* src/http/header.rs: `HeaderMap.bodyLen` (222-233)
* src/http/request.rs: `thenDo` (552-598), `countRead` (597), `Request` (25-42), `splitColon` (538), `connectByHost` (536-550), `fillHost` (574-581), `fillScheme` (583-594), `requestUrl` (563-596), `Request.finishUrl` (562-597), `Request.parseHead` (552-598), `Request.parseBuffer` (552-598), `Request.encodeHeader` (640-650), `Request.http1Data` (625-630)
* src/http/response.rs: `thenDo` (706-725), `Response` (27-34), `Response.parseHead` (706-722), `countRead` (706-725), `Response.parseBuffer` (706-722), `Response.encodeHeader` (691-698), `Response.serialize` (778-791)
* src/http/value.rs: `usizeLoop` (113-126), `HeaderValue.toUsize` (107-130), `isizeLoop` (138-157), `HeaderValue.toIsize` (132-164), `HeaderValue.ofUsize` (192-197), `HeaderValue.ofIsize` (199-204)

`Verif/Model/HttpSettings.lean`

* src/http/http2/frame/settings.rs: `base64Alphabet` (313, 331), `base64Char` (331), `base64Val` (313), `base64Encode` (331), `base64Decode` (313), `Settings.parseHttp` (311-322), `Settings.encodeHttp` (324-332)
* src/http/request.rs: `HeaderMap.upgradeHttp2` (325-333)

`Verif/Model/HuffmanTable.lean`

* src/http/http2/hpack/huffman.rs: `huffmanCodeArray` (219-477)

`Verif/Model/MapEq.lean`

* src/http/header.rs: `HeaderMap.eqHeaders` (24), `WholeMap` (24-28), `WholeMap.systemInsert` (275-277), `WholeMap.systemGet` (279-285), `WholeMap.clear` (102-104), `WholeMap.eq` (24)
* src/http/name.rs: `HeaderMap.eqHeaders` (46-52)
* src/http/value.rs: `HeaderMap.eqHeaders` (208-217)

`Verif/Model/MapIndex.lean`

* src/http/header.rs: `HeaderMap.index` (313-319), `HeaderMap.getMutValue` (126-139), `HeaderMap.indexMut` (321-331)

`Verif/Model/MapIter.lean`

* src/http/header.rs: `HeaderMap.iterMut` (42-44)

`Verif/Model/Method.lean`

* src/http/method.rs: `Method` (18-30), `Method.asStr` (92-106), `Method.encode` (108-113), `Method.isNobody` (73-81), `Method.resNobody` (83-90), `Method.tryFrom` (120-137), `toUpperAscii` (144), `Method.fromStr` (139-144)
* src/http/version.rs: `Version` (17-24), `Version.asStr` (39-47), `Version.encode` (49-54), `Version.ofStr` (71-81)
* src/url/scheme.rs: `toUpperAscii` (156), `Scheme` (18-27), `Scheme.asStr` (71-81), `Scheme.tryFrom` (135-151), `Scheme.fromStr` (153-158)

`Verif/Model/Name.lean`

* src/helper.rs: `eqIgnoreCaseLoop` (441-455), `nameEq` (441-455)
* src/http/name.rs: `nameEq` (28-52), `nameHashInput` (56-72)

`Verif/Model/PartsRequest.lean`

* src/http/http2/frame/headers.rs: `Parts.request` (520-540), `Parts.response` (542-550)

`Verif/Model/Preface.lean`

* src/http/http2/mod.rs: `http2Magic` (13), `magicLen` (14)

`Verif/Model/PushRequest.lean`

* src/http/http2/frame/headers.rs: `safeAndCacheable` (430-434), `validateRequest` (412-428)
* src/http/request.rs: `validateRequest` (491-493)

`Verif/Model/ReadyMade.lean`

* src/http/response.rs: `ResponseBuilder.ready` (347-381), `Response.text` (347-351), `Response.json` (353-357), `Response.status404` (359-363), `Response.status503` (365-369), `Response.status502` (371-375), `Response.status500` (377-381)

`Verif/Model/Reason.lean`

* src/error.rs: `Error.text` (31-43)
* src/http/error.rs: `Error.text` (46-60)
* src/http/http2/error.rs: `Error.text` (70-76)
* src/http/http2/frame/frame.rs: `PriorityFrame` (284-301), `PriorityFrame.cmp` (303-314), `PriorityFrame.eq` (315-320)
* src/http/http2/frame/reason.rs: `Reason` (30-31), `Reason.constants` (38-72), `Reason.description` (75-96), `Reason.debug` (111-140)
* src/url/error.rs: `Error.text` (26-31)
* src/ws/error.rs: `Error.text` (14-19)

`Verif/Model/SettingsApi.lean`

* src/http/http2/frame/settings.rs: `SetCall` (166-211), `Settings.set` (166-211), `Settings.isAck` (154-156), `Settings.isPushEnabled` (197-199), `Settings.isExtendedConnectProtocolEnabled` (205-207)

`Verif/Model/Status.lean`

* src/http/status.rs: `statusTable` (333-525), `codeDigits` (529-574), `codeDigitsBytes` (529-574), `statusFromU16` (63-71), `statusFromBytes` (74-91), `statusAsStr` (125-142), `canonicalReason` (160-162, 318-326), `isInformational` (165-167), `isSuccess` (171-173), `isRedirection` (177-179), `isClientError` (183-185), `isServerError` (189-191), `statusEncode` (204-209)

`Verif/Model/UncheckedText.lean`

* src/helper.rs: `withText` (246-272), `lineTexts` (370-389), `headerTexts` (367-390), `chunkTexts` (392-396)
* src/http/request.rs: `afterRead` (552-598), `requestTexts` (552-561)
* src/http/response.rs: `responseTexts` (706-722)
* src/url/url.rs: `urlTexts` (105-118)

`Verif/Model/UpperCase.lean`

* src/http/method.rs: `utf8Char` (143), `utf8Text` (143), `asciiUppers` (144), `UnicodeUpper` (144), `Method.parseText` (139-144)
* src/url/scheme.rs: `utf8Char` (155), `utf8Text` (155), `asciiUppers` (156), `UnicodeUpper` (156), `Scheme.parseText` (153-158)

`Verif/Model/Url.lean`

* src/helper.rs: `parseScheme` (310-313)
* src/url/scheme.rs: `parseScheme` (63-69)
* src/url/url.rs: `Url` (19-28), `Url.new` (34-44), `mergeField` (51-73), `Url.merge` (51-73), `urlTokenLoop` (75-103), `parseUrlToken` (75-103), `UrlState` (105-131), `UrlState.finish` (140-157), `UrlState.step` (159-212), `UrlState.run` (139-213), `parseOptToken` (216-240), `parsePort` (226-234), `parsePath` (236-238), `Scheme.defaultPort` (244-253), `UrlState.build` (215-255), `parseSchemePrefix` (118-122), `Url.parse` (105-256), `urlEncode` (258-272), `urlDecodeLoop` (274-301), `urlDecode` (274-301), `portSuffix` (304-312, 357-363), `Url.authority` (303-322), `Url.connectUrl` (328-338), `schemeText` (343-345), `userText` (346-352), `queryText` (365-370), `Url.display` (341-372)

`Verif/Model/UrlBuilder.lean`

* src/url/builder.rs: `UrlBuilder` (15-17), `new` (21-23, 109-116), `map` (95-102), `scheme` (34-44), `username` (46-52), `password` (54-60), `domain` (62-69), `port` (71-77), `path` (79-85), `query` (87-93), `build` (104-106)
* src/url/url.rs: `new` (39-49)

`Verif/Model/UrlEq.lean`

* src/url/url.rs: `Url.ofText` (374-400), `Url.eqText` (402-412)

`Verif/Model/Utf8.lean`

* src/http/name.rs: `utf8LossyAux` (174), `utf8Lossy` (174)
* src/url/url.rs: `isCont` (99), `secondOk` (99), `seqLen` (99), `utf8Next` (271, 300), `utf8ValidAux` (99), `utf8Valid` (99), `utf8LossyAux` (271, 300), `utf8Lossy` (271, 300)
* src/ws/message.rs: `isCont` (215), `utf8ValidAux` (215, 230), `utf8Valid` (215, 230)

`Verif/Model/Writer.lean`

* src/helper.rs: `putChunk` (409-416)
* src/http/header.rs: `Put` (287), `putSlice` (291), `HeaderMap.putLoop` (287-297), `HeaderMap.put` (287-297)
* src/http/method.rs: `methodPut` (108-113)
* src/http/request.rs: `putByte` (643), `addSize` (642), `done` (649), `Request.putHeader` (640-650)
* src/http/response.rs: `Response.putHeader` (691-698), `Response.put` (782-790)
* src/http/status.rs: `statusPut` (204-209)
* src/http/version.rs: `versionPut` (49-54)
* src/serialize.rs: `Response.put` (22-66)

`Verif/Model/Ws.lean`

* src/ws/dataframe.rs: `Opcode` (228-263), `Opcode.new` (268-288), `Opcode.toByte` (228-263), `WsFrame` (10-20), `Frameable` (114-190), `WsFrame.toFrameable` (193-225), `unmask` (52-65), `wsReadBody` (37-73), `wsRead` (76-86), `wsReadLimit` (89-111), `Frameable.frameSize` (127-144), `maskerPutAll` (181-184), `Frameable.flags` (154-169), `Frameable.writeTo` (153-190)
* src/ws/frame_header.rs: `MaskKey` (27-28), `MaskKey.toList` (62-64), `WsHeader` (21-31), `wsFin` (8-17), `wsRsv1` (8-17), `wsRsv2` (8-17), `wsRsv3` (8-17), `wsFlagsTruncate` (77), `maskBytes` (62-64), `wsWriteHeader` (34-67), `tryGetBe` (83, 90), `wsReadLen` (80-97), `wsReadMask` (108-117), `wsReadHeader` (70-125)
* src/ws/mask.rs: `maskerPut` (57-64), `maskGo` (68-75), `maskData` (68-75)
* src/ws/message.rs: `MsgType` (16-27), `MsgType.toByte` (16-27), `Message` (38-46), `CloseData` (485-492), `CloseData.intoBytes` (512-519), `OwnedMessage` (255-272), `Message.toFrameable` (133-173), `Message.intoPong` (125-132), `OwnedMessage.toFrameable` (352-435), `collectFrames` (206-216), `messageOf` (218-242), `Message.fromFrames` (187-243), `OwnedMessage.ofMessage` (449-468), `OwnedMessage.toMessage` (470-483), `OwnedMessage.fromFrames` (358-363), `CloseCode` (550-630), `CloseCode.toNat` (632-653), `CloseCode.ofNat` (655-676)

`Verif/Model/WsMessage.lean`

* src/ws/message.rs: `Message.text` (58-70), `Message.binary` (73-78), `Message.close` (82-84), `Message.closeBecause` (89-101), `Message.ping` (105-110), `Message.pong` (114-119), `OwnedMessage.isClose` (279-284), `OwnedMessage.isControl` (295-302), `OwnedMessage.isData` (312-314), `OwnedMessage.isPing` (324-329), `OwnedMessage.isPong` (338-343)

`Verif/Model/WsReader.lean`

* src/ws/dataframe.rs: `readFrameSt` (76-86)
* src/ws/frame_header.rs: `getByte` (74-75, 109-112), `getBe` (83, 90), `readLenSt` (80-97), `readMaskSt` (108-117), `readHeaderSt` (70-125)

## Properties

### C01 HPACK integers round-trip

For every prefix width 1..8, every leading-bit pattern and every value that fits the decoder's five-octet limit, decoding the octets the encoder wrote returns that value and consumes exactly those octets, whatever bytes follow. Values above the limit are rejected with an error, never decoded to a different number.

Model and proof: Model `encode_integer_into` and `decode_integer` octet by octet on `Nat`; round-trip by induction on the base-128 continuation octets. Above the limit: prove `TooManyOctets`.

Result (proved): All prefixes 1..8, all leading bits, all naturals; encoder and decoder also tied to an independent RFC 7541 5.1 value function.

Theorems: `C01_encode_meets_rfc`, `C01_roundtrip`, `C01_too_large_rejected`.

### C02 HPACK integer decoding reads at most five octets and never past what it reports

Whenever an integer is decoded, 1..5 octets are consumed, the consumed octets lie inside the buffer, and the result does not change if bytes after the consumed octets change. A buffer that ends before the integer does is always an error.

Model and proof: Same model; induction over the continuation octets with an explicit suffix.

Result (proved): Exact characterisation of the accepted prefixes of the buffer, plus locality and truncation.

Theorems: `C02_decode_exact`, `C02_decode_local`, `C02_truncated_is_error`.

### C03 Huffman coding round-trips

For every byte string s, Huffman-decoding the Huffman encoding of s succeeds and returns s.

Model and proof: Model table, 64-bit accumulator encoder and bit-by-bit decoder. Prove the accumulator loop equals 'concatenate the code bits, pad with ones' (loop invariant), prove prefix-freeness of the whole 257-entry table by `decide +kernel`, then induct over symbols.

Result (proved): Also: output is the RFC form, and the table is the canonical code of its lengths.

Theorems: `C03_roundtrip`, `C03_encode_meets_rfc`, `C03_table_canonical`.

### C04 Huffman decoder accepts only canonical encodings

If a byte string decodes successfully, it is exactly the encoding of the returned string: at most seven padding bits, all ones, no EOS symbol inside.

Model and proof: False as stated: EOS decodes as byte 0 (witness `ff ff ff ff`). Negation proved, plus `_partial`: every accepted string is the canonical encoding when the symbol sequence has no EOS.

Result (partial): False as stated: EOS is accepted as byte 0 (C04_violated). Proved: exact acceptance with EOS allowed, canonicity without EOS.

Theorems: `C04_violated`, `C04_accepts_exactly_partial`, `C04_canonical_partial`.

### C05 Lower-casing Huffman encoder equals encoding of the lower-cased string

encode_lower(s) decodes to s with exactly the bytes A-Z replaced by a-z.

Model and proof: Model `encode_lower` separately from `encode`; prove it decodes to the lower-cased string.

Result (proved): proved in full.

Theorems: `C05_encode_lower`.

### C06 HPACK dynamic table never exceeds its limit, accounts its size exactly and never panics

After any history of insertions and maximum-size changes the reported size equals the sum over present entries of name length + value length + 32, is at most the current maximum, and the eviction loop never reaches its panic.

Model and proof: Invariant by induction over operation histories, panic as explicit outcome.

Result (proved): Invariant by induction over any list of insertions and limit changes; includes absence of the panic.

Theorems: `C06_size_invariant`.

### C07 HPACK dynamic table evicts oldest first and only as much as needed

After an insertion or a limit change the table holds the longest run of newest entries that fits the limit; no entry is dropped while it would still fit and no newer entry is dropped before an older one.

Model and proof: `consolidate` refined to 'longest prefix of the newest-first list that fits'.

Result (proved): IsEviction is a specification of its own: a prefix that fits, maximal among prefixes that fit.

Theorems: `C07_insert_evicts`, `C07_limit_evicts`.

### C08 HPACK index space is static table then dynamic table newest first

Index 0 and indices past the end are rejected; 1..61 give the RFC 7541 Appendix A entry; 61+k gives the k-th most recently added surviving entry.

Model and proof: Refinement of `get_from_index` to one appended list; static part compared with a separately typed RFC 7541 table. False at index 15 (`accept-` instead of `accept-charset`, an entry whose header name is wrong): negation + `_partial` for all other indices.

Result (partial): False for index 15 (C08_static_violated: the table says accept- instead of accept-charset). Proved for every other static index, for index 0, for past-the-end indices and for the dynamic part over any history.

Theorems: `C08_static_violated`, `C08_static_partial`, `C08_dynamic`, `C08_dynamic_history`.

### C09 HPACK header lists survive encode/decode over a whole connection

For a decoder whose table started equal to the encoder's, decoding each header block in order returns the header list that was encoded: same length, order and values, names lower-cased; the two dynamic tables stay in step after every block.

Model and proof: Simulation relation between encoder and decoder tables (equal up to ASCII case), induction over headers and over blocks. False in general: index >= 127 is mis-decoded by `decode_indexed`, and `find_header` confuses names such as `x^`/`x~`. Negations with witnesses, `_partial` under exactly the guards that exclude them.

Result (partial): False as stated for two independent reasons (header names that compare equal without being equal; dynamic indices above 126). Exact for both: for headers in reach (not in the dynamic table, or among its 65 newest entries) names from a set are read back if and only if the encoder confuses no two of them (C09_names_iff_partial); for such names, headers sent one in a block are read back if and only if all are in reach (C09_singles_iff_partial). A header out of reach at the end of a block always makes it unreadable (C09_violated_unreachable), and one found as entry 98 to 129 always makes the decoder loop for ever (C09_violated_hang). Not settled: a header out of reach followed by others in its block, outside that range.

Theorems: `C09_violated_by_name_confusion`, `C09_connection_roundtrip_partial`, `C09_plain_names_partial`, `C09_violated_by_large_index`, `C09_reachable_partial`, `C09_names_iff_partial`, `C09_violated_unreachable`, `C09_singles_iff_partial`, `C09_violated_hang`.

### C10 HPACK decoding terminates on every input

Decoder::decode returns Ok or Err after at most as many steps as there are input bytes.

Model and proof: Step relation of the decode loop. False: a dynamic table size update consumes nothing, so the loop never ends; prove that from such a state no number of steps finishes, and `_partial`: otherwise every step consumes at least one byte, hence termination within input length.

Result (partial): False: a dynamic table size update is never consumed and the loop spins for ever (for all step counts). Proved: it ends exactly when none is reached, then within one round per byte. Exact without the model's step: a block is endless if and only if an octet 001xxxxx follows representations that are read (C10_endless_iff_partial).

Theorems: `C10_violated`, `C10_size_update_never_ends`, `C10_terminates_iff_partial`, `C10_endless_iff_partial`.

### C11 HPACK decoding is compositional

Decoding a concatenation of header blocks gives the concatenation of the header lists obtained by decoding the blocks one after the other with the same decoder, and leaves the same table.

Model and proof: Induction on the steps of the first block; the second block as suffix (suffix independence of all sub-decoders).

Result (proved): Includes errors and non-termination of the continuation.

Theorems: `C11_compositional`, `C11_blocks`.

### C12 HPACK decoder never panics and keeps its table invariant on hostile input

Whatever bytes are decoded, each decoding step either reports an error or yields a header and the decoder's table still satisfies the size invariant; no step panics.

Model and proof: Case analysis over the step; table invariant preserved.

Result (proved): Per step and per run, from any table that satisfies the invariant. Also after a decoding error: C12_table_after.

Theorems: `C12_table_after`, `C12_step_safe`, `C12_run_safe`.

### C13 HTTP/2 frame headers round-trip

Parsing the nine bytes written for a frame header returns the same length, kind, flags and stream id, and leaves the following bytes unread, for every length below 2^24, registered kind, flag set and 31-bit stream id.

Model and proof: Big-endian arithmetic lemmas; kind and flag finite.

Result (proved): Flag sets are bytes with named bits only (the only ones FrameHeader can hold); encoder output also given byte by byte.

Theorems: `C13_roundtrip`, `C13_encode_wire`.

### C14 HTTP/2 frame header parsing is strict about length and ignores the reserved bit

Fewer than nine bytes is Short; otherwise the result depends on the nine bytes only, the length is below 2^24, the stream id is below 2^31 and does not depend on the reserved bit; unknown flag bits do not make an otherwise valid frame unparseable.

Model and proof: Direct; the unknown-flag clause is false (BadFlag on e.g. 0x02), negation + `_partial`.

Result (partial): Exactness, ranges and kinds proved for all byte strings. The claim on unknown flags is false (C14_flags_violated): a flag byte with an unnamed bit is an error instead of being ignored.

Theorems: `C14_short`, `C14_exact`, `C14_ranges`, `C14_kinds`, `C14_flags_violated`.

### C15 PING, GOAWAY, WINDOW_UPDATE and RST_STREAM frames round-trip

For every frame value with in-range fields, parsing the frame header and payload from the written bytes returns an equal frame, the written length field equals the payload length and the returned size equals the number of bytes written.

Model and proof: Big-endian lemmas per frame.

Result (proved): Read back from a longer stream, whatever follows; size returned equals bytes written.

Theorems: `C15_ping`, `C15_goAway`, `C15_windowUpdate`, `C15_reset`.

### C16 PRIORITY frames round-trip

For every priority frame, the bytes written are a frame header announcing the payload length followed by the payload, and parsing them returns the same stream, dependency, weight and exclusive flag.

Model and proof: False: length field is 0 and the exclusive bit is dropped. Negations + `_partial` (payload round-trips for non-exclusive dependencies).

Result (partial): False: the frame header announces length 0 for the five payload bytes, and the exclusive bit is dropped. Proved: the payload itself, and exact acceptance of the reader.

Theorems: `C16_violated`, `C16_never_readable`, `C16_payload_partial`, `C16_parse_exact`.

### C17 SETTINGS frames round-trip

For every settings value with legal fields, parsing the written frame returns equal settings; an ACK parses as an ACK; length field and returned size match the bytes written.

Model and proof: Seven optional fields; encoding as list of six-byte records, fold.

Result (proved): All legal settings, including the empty ACK.

Theorems: `C17_roundtrip`.

### C18 SETTINGS parsing enforces legal values and last-one-wins

A payload is accepted only if its length is a multiple of six and every known parameter is legal (push and connect in {0,1}, window at most 2^31-1, frame size in 2^14..2^24-1); each field of the result is the last value given for it, absent if never given; unknown identifiers change nothing; an ACK with payload or a non-zero stream is rejected.

Model and proof: Refine the parse loop to a fold over the decoded (id,value) list; 'last value wins' spec.

Result (proved): Acceptance iff, over payloads of any length; last value wins; no panic.

Theorems: `C18_parse_iff`, `C18_stream_and_ack`, `C18_no_panic`.

### C19 DATA splitting preserves the body, the frame size limit and END_STREAM

Encoding a DATA frame of any size with any positive maximum frame size writes a sequence of well-formed DATA frames on the same stream whose payloads concatenate to the body, each at most the maximum, with END_STREAM exactly on the last one and only if it was set.

Model and proof: Recursion on the remaining body; max size 0 is the divergent case, modelled with fuel and proved to never finish.

Result (proved): C19_split for all limits from 1; reading back for limits below 2^24 (the 24-bit length field); a limit of 0 never ends.

Theorems: `C19_split`, `C19_part_reads_back`, `C19_reads_back`, `C19_zero_limit_never_ends`.

### C20 Padding is removed from received frames

A padded DATA frame delivers exactly the application bytes, without the pad-length byte and without the padding; padding longer than the payload is rejected.

Model and proof: False: padding bytes are left in the payload. Negation + `_partial` (unpadded and zero-padding frames, over-long padding rejected). Props/SplitExact.lean: the answer for every padded DATA frame, and when it is right.

Result (partial): False: padding is left in the data, and a pad length equal to the payload is accepted. Proved: exactly what is returned for every padded DATA frame (C20_read_partial), so the claim holds of a frame exactly if its pad length is zero or over the payload (C20_iff_partial); too-long padding is refused for frames of all kinds.

Theorems: `C20_padding_kept_partial`, `C20_violated`, `C20_pad_too_long`, `C20_boundary_violated`, `C20_read_partial`, `C20_iff_partial`.

### C21 HEADERS/CONTINUATION splitting keeps the block intact

Encoding a header block writes one HEADERS frame followed by CONTINUATION frames on the same stream; END_HEADERS is on the last frame only; the fragments concatenate to the block produced by encoding all fields in order; END_STREAM, if requested, is on the HEADERS frame; no fragment exceeds the maximum frame size.

Model and proof: Model `HeaderBlock::encode`; prove concatenation, stream id, END_HEADERS placement; negations for END_STREAM placement and frame size bound, `_partial`. Props/SplitExact.lean: exactly when the claim holds of a call (octets have one reading as frames), and how far the limit can be missed.

Result (partial): False for two reasons (END_STREAM on the last CONTINUATION; fragment size not bounded by the limit). Proved for all maps, states and limits: frame kinds, stream, END_HEADERS, block intact, size. The claim holds of a call exactly if there is one frame or no END_STREAM and the fragments are within the limit (C21_iff_partial), so it is violated whenever END_STREAM is requested and there are two frames (C21_violated_always); fragments are at most four times the limit and 20 bytes if every field is within the limit (C21_size_partial).

Theorems: `C21_violated_by_end_stream`, `C21_violated_by_size`, `C21_block_intact_partial`, `C21_single_frame_partial`, `C21_no_end_stream_partial`, `C21_iff_partial`, `C21_violated_always`, `C21_size_partial`.

### C22 HEADERS frames round-trip through a connection

Parsing an encoded HEADERS frame with a decoder in step with the encoder returns the same header fields (names lower-cased) and pseudo-header parts.

Model and proof: Built on C09 and C35. Parts are not written (negation), `_partial` for fields. Props/SplitExact.lean: exactly which frames are read back.

Result (partial): False as stated (Headers::encode never writes the parts). A HEADERS frame that fits one frame is read back with its fields and without its parts (C22_read_partial), so the claim holds of it exactly if it has none (C22_iff_partial). Proved once Parts::encode_header has run: blocks for all synchronised states, and whole connections of mixed frames for header blocks that fit one frame.

Theorems: `C22_violated`, `C22_block_roundtrip_partial`, `C22_connection_partial`, `C22_read_partial`, `C22_iff_partial`.

### C23 Received header lists respect the advertised maximum size

Headers::parse succeeds only if the sum over all decoded fields of name length + value length + 32 is at most the given maximum.

Model and proof: Fold invariant in `Headers::parse`.

Result (proved): For all payloads, states and limits.

Theorems: `C23_limit`.

### C24 Stream identifiers handed out are distinct, increasing and keep their parity

Successive next_id calls from an initial identifier return that identifier plus 0, 2, 4, ... : strictly increasing, never repeated, all of one parity, up to the 32-bit limit.

Model and proof: Induction on number of calls, overflow panic explicit.

Result (proved): All counts of identifiers, including exhaustion.

Theorems: `C24_ids`, `C24_distinct`.

### C25 A byte stream of control frames can be cut back into the frames that were written

Writing any sequence of PING, GOAWAY, WINDOW_UPDATE, RST_STREAM and SETTINGS frames back to back and then repeatedly reading a header and that many payload bytes returns exactly the sequence.

Model and proof: Induction over the frame list using C13, C15, C17.

Result (proved): All sequences of control frames; C22_connection_partial extends this to HEADERS and DATA.

Theorems: `C25_one`, `C25_stream`.

### C26 WebSocket frame headers round-trip

For every header the writer accepts (and FIN set for control opcodes), reading the written bytes gives back flags, opcode, mask and length and leaves the rest unread.

Model and proof: Case split on the three length encodings.

Result (proved): All headers the writer accepts, with the bytes characterised against RFC 6455 5.2.

Theorems: `C26_writer_accepts`, `C26_write_wire`, `C26_roundtrip`.

### C27 WebSocket header reading accepts only minimal, legal headers

If a header is read successfully its length uses the shortest encoding, control frames have length below 126 and FIN set, and re-writing the header gives exactly the bytes consumed.

Model and proof: Inversion of `read_header`.

Result (proved): Exact: reading succeeds iff the input starts with a legal header in shortest form.

Theorems: `C27_read_iff`, `C27_rewrite`, `C27_no_panic`.

### C28 WebSocket masking is an involution and can be applied piecewise

Masking twice with the same key restores the data; length is preserved; writing a payload in any number of pieces through the masking writer produces the same bytes as masking it at once.

Model and proof: Induction with key rotation. `inner_put_slice` of the external buffer crate assumed to append.

Result (proved): All keys, data and lists of pieces.

Theorems: `C28_mask_rfc`, `C28_involution`, `C28_length`, `C28_piecewise`.

### C29 WebSocket data frames round-trip

Reading the bytes written for a data frame, masked or not, returns an equal frame and leaves the following bytes unread; a strict prefix of the bytes is always an error.

Model and proof: C26 + C28 + suffix reasoning.

Result (proved): Both directions, all strict prefixes.

Theorems: `C29_roundtrip`, `C29_truncated`, `C29_read_exact`.

### C30 WebSocket frame_size is the number of bytes written

frame_size(masked) equals the number of bytes write_to appends, and write_to returns that number.

Model and proof: Length computation; `write_to` returns 0 (negation), `_partial` for frame_size.

Result (partial): False as stated: write_to always returns Ok(0) (dataframe.rs). Proved: the bytes appended are frame_size, for data frames and both message types.

Theorems: `C30_violated`, `C30_returns_zero`, `C30_bytes_written_partial`, `C30_sizes`.

### C31 WebSocket size limit is enforced before the payload is taken

read_dataframe_with_limit never returns a frame with more payload bytes than the limit, and within the limit it agrees with read_dataframe.

Model and proof: Direct.

Result (proved): Exact: the limited reader returns a frame iff the unlimited one does and it is within the limit.

Theorems: `C31_limit`, `C31_refused_early`.

### C32 WebSocket messages reassemble from any fragmentation

Splitting a message payload into any number of frames (first with the message opcode, the rest continuation) and reassembling gives the message; sequences with a non-continuation follow-up frame, reserved bits, or an unsupported first opcode are rejected.

Model and proof: Induction over the fragments. UTF-8 validity is modelled concretely.

Result (proved): Exact characterisation of all accepted frame sequences; FIN bits play no part, as in the code.

Theorems: `C32_reassemble`, `C32_accepts_iff`.

### C33 WebSocket messages round-trip over the wire

Writing a text, binary, ping, pong or close message and reading it back as a frame and then a message returns an equal message.

Model and proof: C29 + C32.

Result (proved): Single messages and streams of any number of messages; control messages over 125 octets are refused.

Theorems: `C33_close_bytes`, `C33_roundtrip`, `C33_stream`, `C33_long_control_refused`, `C33_owned_roundtrip`.

### C34 WebSocket close codes convert without loss

Every 16-bit code converts to a close code and back to itself; converting a close code to a number and back gives the same close code unless it was an Other alias of a named code.

Model and proof: Finite table, arithmetic.

Result (proved): All codes, both ways, and agreement with the registry.

Theorems: `C34_code_roundtrip`, `C34_name_roundtrip`, `C34_registry`.

### C35 HeaderMap behaves as a case-insensitive map under any operation history

After any sequence of insert, push, remove and clear, lookups agree with an abstract finite map keyed by lower-cased name: insert overwrites, push appends with ';', remove deletes, other names are unaffected and no name is present twice.

Model and proof: Abstraction to a function from lower-cased name to value; induction over histories. False for names with bytes such as `^`/`~` because of C36: negation, `_partial` for names over the token alphabet without such pairs.

Result (partial): Violated: the code's name equality identifies bytes 32 apart, so x- and xM are the same entry. Exact: maps with names from a set behave as maps if and only if no two names of the set are ambiguous (C35_names_iff_partial), in particular for all lower-case names without ~ and all names of letters; no duplicates up to case in any history.

Theorems: `C35_getters_partial`, `C35_violated`, `C35_map_partial`, `C35_names_iff_partial`, `C35_lower_case_partial`, `C35_letters_partial`, `C35_no_duplicates`.

### C36 Header name equality is ASCII case-insensitivity and agrees with hashing

Two header names are equal exactly when they are equal after ASCII lower-casing; equality is an equivalence relation; equal names hash equally.

Model and proof: False ('@' equals '`', not transitive, unequal hashes). Negations, `_partial` for names whose non-letter bytes do not collide.

Result (partial): Violated ('-' equals 'M'; not transitive; equal names hash differently). Proved on all byte strings: exact characterisation, completeness, reflexivity, symmetry, hash = hash of lower case; two names are compared and hashed right if and only if they are unambiguous (C36_iff_partial).

Theorems: `C36_violated`, `C36_violated_transitivity`, `C36_violated_hash`, `C36_complete_partial`, `C36_hash`, `C36_exact`, `C36_sound_partial`, `C36_iff_partial`, `C36_on_classes_partial`.

### C37 Header blocks round-trip through HTTP/1 text

Parsing the text written for a header map returns the same entries in the same order and leaves what follows unread, and a header value can never introduce another header line.

Model and proof: False for values with CR LF or leading spaces (negations), `_partial` for names over tchar and values without CR and leading space.

Result (partial): Violated: CR LF in a value injects a header line; leading spaces are dropped. Proved: exactly the clean maps round-trip, CR-free maps round-trip up to leading spaces, everything accepted is clean.

Theorems: `C37_violated_injection`, `C37_violated`, `C37_roundtrip_partial`, `C37_roundtrip_iff`, `C37_accepts_clean`.

### C38 An incomplete HTTP/1 head is always reported as partial

For every request or response head that parses, parsing any strict prefix of it reports Partial: never success, never a hard error.

Model and proof: Suffix/prefix lemmas for every combinator ('if accepts x++y after consuming all of x++y then on x gives Partial').

Result (proved): Proved for requests and responses, all cut points, any state of the message parsed into.

Theorems: `C38_response`, `C38_request`.

### C39 HTTP/1 head parsing does not look at or consume the body

If a head parses, appending any bytes gives the same result and the same number of consumed bytes, and the consumed count is the length of the head.

Model and proof: Suffix-independence lemma for every combinator.

Result (proved): Proved for requests and responses.

Theorems: `C39_response`, `C39_request`.

### C40 Responses round-trip through HTTP/1 text

Parsing a serialised response returns the same version, status and headers, and what remains unread is exactly the body.

Model and proof: C37 + status table.

Result (partial): Violated through header injection. Proved: a serialised response round-trips exactly if its headers are clean; without CR no injection.

Theorems: `C40_violated`, `C40_roundtrip_iff_partial`, `C40_no_injection_partial`, `C40_serialisable`, `C40_head_and_body`.

### C41 Requests round-trip through HTTP/1 text

Parsing a serialised request returns the same method, path, query, version and headers, and what remains is exactly the body.

Model and proof: Composition of the parser lemmas of C37 and C49; exact iff for clean headers.

Result (partial): Violated: the query is not written, the path is written without encoding (so an accepted request can be written as a refused one or as one with an injected header). Proved: exactly which requests round-trip, of all whose headers were made with the operations of a header map (C41_exact_partial); an accepted CONNECT request is written as one to connect to the host `/` (C41_violated_connect). The project's own test urltest_001 asserts the part that is violated.

Theorems: `C41_violated`, `C41_violated_encoding`, `C41_violated_injection`, `C41_roundtrip_iff_partial`, `C41_exact_partial`, `C41_violated_connect`.

### C42 Chunked coding round-trips

Reading the chunks written by encode_chunk_data gives back the data pieces in order and the reported offsets delimit exactly the data; any strict prefix of a chunk is Partial; no input makes the reader panic.

Model and proof: Hex printing/reading lemmas; `from_str_radix(..).unwrap()` overflow panics: negation + `_partial`.

Result (partial): Round trip, sequences and prefixes proved for data below 2^63 bytes (the most a slice can have). The last part is violated: lengths of 2^64-2 and more panic (exact condition proved; overflow checks on).

Theorems: `C42_wire`, `C42_roundtrip`, `C42_sequence`, `C42_prefix`, `C42_violated_panic`, `C42_panic_iff_partial`.

### C43 Numeric header values are read exactly or rejected

Reading a header value as a number succeeds exactly when it is a decimal numeral in range and returns its value, and never panics; writing a number as header value and reading it back returns it.

Model and proof: Fold model with 64-bit overflow made explicit. False (overflow on the last digit panics or wraps; `--5`, `0-5` accepted): negations + `_partial`.

Result (partial): Violated: empty value read as 0, 2^64 and 2^63 panic, --5 read as -5, the least isize not read back. Exact acceptance conditions and round trips proved.

Theorems: `C43_violated_empty`, `C43_violated_panic`, `C43_violated_sign`, `C43_violated_min`, `C43_usize_partial`, `C43_usize_panic_partial`, `C43_isize_partial`, `C43_isize_reads_partial`, `C43_static`, `C43_roundtrip_usize`, `C43_roundtrip_isize_partial`, `C43_body_len_partial`, `C43_violated_body_len`.

### C44 Status codes convert exactly

from_u16 accepts exactly 100..999; from_bytes accepts exactly the three-digit numerals 100..999; as_str and from_bytes are inverse; exactly one class predicate holds below 600 and none from 600.

Model and proof: Arithmetic; CODE_DIGITS table by kernel computation over all 900 entries.

Result (proved): Proved in full.

Theorems: `C44_from_u16`, `C44_from_bytes`, `C44_roundtrip`, `C44_classes`.

### C45 Methods and versions convert exactly

Parsing accepts exactly the standard method and version names; converting to text and back is the identity on every parsed value.

Model and proof: Finite names; inversion for all strings.

Result (proved): Proved in full.

Theorems: `C45_version_from`, `C45_version_agree`, `C45_method`, `C45_method_text`, `C45_version`, `C45_version_text`, `C45_parse`.

### C46 Percent-encoding round-trips and produces only safe characters

url_decode(url_encode(s)) = s for every string; the encoding contains only unreserved characters, the separators it deliberately keeps, and % followed by two hex digits.

Model and proof: Induction over bytes; 256-entry map by kernel computation.

Result (proved): Proved in full; strings are valid UTF-8, as Rust strings are.

Theorems: `C46_roundtrip`, `C46_stands_for`, `C46_safe`, `C46_injective`.

### C47 Percent-decoding rejects every malformed escape

url_decode succeeds exactly when each % is followed by two hex digits, and then replaces each escape by its byte and copies everything else.

Model and proof: Independent inductive grammar of escapes; equivalence by induction.

Result (partial): Acceptance is exact. The result is violated for escapes that are not UTF-8: they are replaced by U+FFFD. Proved: exactly what is returned. Exact condition: C47_iff_partial.

Theorems: `C47_iff_partial`, `C47_violated`, `C47_accepts`, `C47_rejects`, `C47_result_partial`, `C47_valid_partial`.

### C48 URLs round-trip through text

Parsing the text of a URL returns an equal URL.

Model and proof: `_partial` for the class of URLs whose text is unambiguous; negations for the rest.

Result (partial): Violated: the encoder keeps ? and @, so text may parse to another path, query or host. Exact: among the URLs that text can carry, those read back from their text are those without such characters in the wrong part (C48_roundtrip_iff_partial).

Theorems: `C48_violated`, `C48_violated_host`, `C48_roundtrip_partial`, `C48_roundtrip_iff_partial`.

### C49 URL parsing yields complete, well-formed parts

A parsed URL always has a port (explicit, else 80/443/80/443/21 by scheme, else 0), an absolute URL has a domain, an origin-form one has none, and every part is the percent-decoding of a substring of the input.

Model and proof: Invariant of the state machine loop.

Result (partial): Violated: http://h/p?q@z has no domain; ? before the first / is dropped, which can change the port. Proved: port always present; exactly which texts are URLs and which URL each is, for every text (C49_language_partial); an absolute URL lacks a host exactly if an @ and a ? follow its first slash (C49_domain_iff_partial); parts are decodings of substrings unless ? comes before the first /.

Theorems: `C49_violated`, `C49_violated_port`, `C49_port`, `C49_origin`, `C49_domain_partial`, `C49_parts_partial`, `C49_absolute_partial`, `C49_absolute_iff_partial`, `C49_language_partial`, `C49_domain_iff_partial`.

### C50 URL merge overrides exactly the parts given

merge takes each part from the other URL if present there (scheme not None, path not '/', port not 0) and keeps its own otherwise; merging is idempotent and merging an empty URL changes nothing.

Model and proof: Case analysis.

Result (proved): Proved in full.

Theorems: `C50_fields`, `C50_idempotent`, `C50_empty`, `C50_into_empty`.

### C51 Schemes convert exactly

Scheme text parses back to the same scheme; texts longer than 64 bytes are rejected; the five known names map to their own variants and nothing else does.

Model and proof: Case analysis. FromStr upper-cases first (negation for that entry point).

Result (partial): Violated for None and for extensions named like a known scheme; the rest is proved, acceptance exactly. Exact condition for the round trip: C51_iff_partial.

Theorems: `C51_iff_partial`, `C51_violated`, `C51_roundtrip_partial`, `C51_text`, `C51_length`, `C51_known`, `C51_parse_length`.

### C52 Extensions behave as a map keyed by type

After any sequence of insert, remove, clear and extend, get returns the value most recently stored for that type or nothing; insert and remove return the value previously stored; len counts the types present.

Model and proof: Type identifiers abstracted as a key type with decidable equality; refinement to a function.

Result (proved): Proved in full, for any family of types and any history, including extend with extensions of any history; includes that the downcasts never fail.

Theorems: `C52_get`, `C52_insert_returns`, `C52_remove_returns`, `C52_len`, `C52_is_empty`.

### C53 Byte search is exact

contains holds exactly when the needle occurs as a contiguous run in the header value; keep-alive, chunked and upgrade detection are exactly that search on the right header.

Model and proof: Refinement to `List` infix.

Result (proved): Proved in full; the search is case-sensitive, as in the code.

Theorems: `C53_contains`, `C53_detection`, `C53_upgrade`.

### C54 Encoders report the number of bytes they append

Every HTTP/1 and HTTP/2 encoder that returns a size appends exactly that many bytes and leaves earlier buffer content unchanged, also when it fails (WebSocket: C30).

Model and proof: HTTP/1: encoders as functions on the buffer with an explicit size counter, `Honest` by composition. HTTP/2: induction over rounds and fragments.

Result (proved): Proved in full. HTTP/1 encoders are modelled call by call with the buffer as state; frames by the bytes they append.

Theorems: `C54_headers`, `C54_method`, `C54_version`, `C54_status`, `C54_request`, `C54_response`, `C54_response_body`, `C54_chunk`, `C54_request_bytes`, `C54_response_bytes`, `C54_response_head_bytes`, `C54_frame`.

### C55 The partial flag tells whether a head has been parsed completely

After a parse call a message is marked complete exactly when its head was read to the end; a failed parse leaves it marked partial.

Model and proof: Flag as model state.

Result (partial): Proved for responses. Violated for requests: partial is cleared before the URL is worked out. Proved: that is the only exception.

Theorems: `C55_response`, `C55_violated_request`, `C55_request_partial`.

### C56 The host of a URL comes from its authority

Host, port and user information of a parsed absolute URL are those of the text cut at the first '/' after '://'; nothing in path or query can change them.

Model and proof: State machine loop with the authority as prefix; compare with the same text cut before the path. False: negation with witness, `_partial` without @ after the authority.

Result (partial): Violated: http://trusted/x@evil has host evil, and whenever an @ follows the first slash the host written becomes the user name (C56_violated_always). Proved for every authority if no @ follows it; for authorities without user information the claim holds exactly then (C56_iff_partial).

Theorems: `C56_violated`, `C56_authority_partial`, `C56_any_authority_partial`, `C56_violated_always`, `C56_iff_partial`.

### C57 str::parse of a scheme name gives that scheme

"http".parse::<Scheme>() gives Scheme::Http, and likewise for the other four known names.

Model and proof: Case analysis; negation, and a theorem that it never gives a known scheme.

Result (partial): Violated for all five names: the text is upper-cased and compared with lower-case names. Proved: no text whatever gives a known scheme, and exactly what it gives instead (C57_any_text, for every mapping that has Unicode's values into ASCII).

Theorems: `C57_any_text`, `C57_violated`, `C57_never`.

### C58 Parsing an HTTP/2 frame never panics

Frame::parse gives a frame or an error for every frame header and payload a peer can send, and leaves the header table in a state from which the next frame is parsed just as safely.

Model and proof: Case split over the kinds; exact condition for a panic; table invariant preserved. Negation by a DATA frame on stream 0.

Result (partial): Violated: DATA on stream 0 reaches assert!. Proved: exactly when parsing panics (so no other kind of frame ever does), and that the header table stays valid. The model reads as many payload bytes as the caller hands over. The table stays valid also after refused frames, and over a whole connection that goes on after them no other frame panics (C58_table_after, C58_connection_partial).

Theorems: `C58_table_after`, `C58_connection_partial`, `C58_violated`, `C58_panic_iff_partial`, `C58_table_kept`.

### C59 Parsing URLs, request heads and response heads never panics

Url::parse, Request::parse_buffer and Response::parse_buffer return a value or an error for every input.

Model and proof: Panics are explicit in the model; each helper is shown not to reach one, then composed.

Result (proved): Proved in full for the modelled functions.

Theorems: `C59_url`, `C59_request`, `C59_response`.

### C60 Reusing a request or response object leaks nothing

Parsing with an object that was used before, with any inputs and outcomes including failures, gives the same result, the same unread bytes and, on success, the same head of the message (method or status, URL, version, headers) as parsing with a new object.

Model and proof: Outcome of a parse does not depend on the state it starts from, by following the parser; histories by a fold.

Result (proved): Proved in full for the head; for extensions, system values and body see C129.

Theorems: `C60_request`, `C60_response`.

### C61 HTTP2-Settings carries the settings

encode_http_settings is base64url without padding of the SETTINGS payload, made of header-safe characters; parse_http_settings reads back exactly the settings RFC 9113 allows, accepts exactly the unpadded base64url texts of legal payloads, and never panics; a request built with upgrade_http2 asks for h2c and carries the settings.

Model and proof: base64 as a relation on bits (RFC 4648) proved equal to the modelled coder; then C17/C18 for the payload.

Result (partial): Header value: proved in full; the base64 crate is not in the repository and its engine is modelled from RFC 4648 (trusted). upgrade_http2: violated for a request that already has a header such as '#onnection' (names are compared byte by byte up to 32, see C35); proved for all header maps whose names are not ambiguous with the three names added.

Theorems: `C61_builder_partial`, `C61_roundtrip`, `C61_refused`, `C61_text`, `C61_value`, `C61_parse_iff`, `C61_no_panic`, `C61_violated_upgrade`, `C61_upgrade_partial`.

### C62 The target of a request

An accepted request in origin form has the path and query of its target and the host and port of its Host header; in absolute form the target alone decides; with CONNECT the target is host or host:port.

Model and proof: Separate reading of the target (Spec/Target) and the URL parser's lemmas; negations by concrete requests.

Result (partial): Violated in four ways: a header Zscheme or Zauthority acts as :scheme or :authority, an '@' in the query of an absolute target loses the host so that Host is used, and IPv6 hosts are refused. Proved: the rest, exactly, for origin form, absolute form and CONNECT.

Theorems: `C62_violated_host`, `C62_violated_scheme`, `C62_violated_absolute`, `C62_violated_ipv6`, `C62_origin_partial`, `C62_accepts_partial`, `C62_absolute_partial`, `C62_connect`.

### C63 A request made from a HEADERS frame is what the frame says

Headers::into_request gives a request with the method of :method, host and port from :scheme and :authority whatever :path is, path and query from :path, and the fields as headers; a frame without :authority is refused. Headers::into_response gives the status and the fields.

Model and proof: The conversion as a chain of builder calls (C64); the URL through the reading of URL texts of C49; negation by a concrete frame.

Result (partial): Violated: the URL is made by joining the texts and parsing the result, so :authority good.com with :path /x@evil.com is a request to evil.com, and :path .evil.com/ continues the host. Proved: exactly which URL any frame gives (C63_url_iff_partial); method, headers and responses in full.

Theorems: `C63_violated_host`, `C63_no_authority`, `C63_request`, `C63_url_partial`, `C63_response`, `C63_response_parts`, `C63_url_iff_partial`, `C63_violated_joined`.

### C64 Builders do what the calls say

A chain of calls on a request or response builder fails exactly with the error of the first failing call; otherwise the last method, URL, version or status set counts, and looking up a header gives the last value set for it, with User-Agent or Server added only if none was set.

Model and proof: Induction over the chain of calls; header maps through C35.

Result (partial): Proved for errors, method, URL, version and status. Header lookup is violated for ambiguous names (UserMAgent counts as a User-Agent, see C35) and proved for unambiguous ones.

Theorems: `C64_error`, `C64_built`, `C64_violated_lookup`, `C64_lookup_partial`, `C64_response_ok`, `C64_response_built`, `C64_response_lookup_partial`, `C64_from_request`.

### C65 Host follows the URL

After a URL with host and port is given to a request, by Builder::url or Request::set_url, the Host header is that host and port.

Model and proof: Lookup after insertion, for all header maps.

Result (partial): Proved for the builder. Violated for set_url, which keeps a Host that is there; the exact value is proved. Exact condition: C65_set_url_iff_partial.

Theorems: `C65_builder`, `C65_violated_set_url`, `C65_set_url_partial`, `C65_get_host`, `C65_set_url_iff_partial`.

### C66 The decoder understands a conforming encoder

Every header block that has a meaning by RFC 7541 (sections 2.3 to 6) for the table held is decoded by Decoder::decode to exactly those headers and leaves exactly that table.

Model and proof: RFC 7541 as a relation between octets, representations and meanings, written without the code; induction over the representations of a block.

Result (partial): Violated four ways: static entry 15 is accept- instead of accept-charset, a table size update makes the decoder loop for ever, indices from 127 on are not read, integers of more than five octets are refused. Proved for all blocks of all other representations. Exact for blocks with indices up to 126: decoded as the RFC says if and only if all representations are plain and all integers short (C66_iff_partial).

Theorems: `C66_iff_partial`, `C66_violated_static`, `C66_violated_size_update`, `C66_violated_index`, `C66_violated_integer`, `C66_decodes_partial`.

### C67 A conforming decoder understands the encoder

Over a whole connection, what Encoder writes is read by any RFC 7541 decoder as exactly the headers given, names in lower case, and the two tables stay in step.

Model and proof: Same relation as C66, uniqueness of readings, induction over headers and blocks.

Result (partial): Violated: a header named accept- is written as static entry 15, which is accept-charset. Exact: names from a set arrive at every RFC 7541 decoder, whatever is sent, if and only if accept- is not in the set and the encoder confuses no two names of it (C67_names_iff_partial); encoding never fails.

Theorems: `C67_violated`, `C67_one_reading`, `C67_connection_partial`, `C67_names_iff_partial`.

### C68 The decoder accepts only what RFC 7541 gives a meaning

If Decoder::decode returns headers for a block then the block means by RFC 7541 exactly those headers and that table.

Model and proof: Inversion of the decoder step by step against the relation of C66.

Result (partial): Violated three ways: static entry 15, the lone octet 255 taken for index 127, Huffman strings with the EOS code word accepted. Proved: an accepted block means what it is decoded to, unless after a part the RFC reads it has one of the listed deviating forms. The language of the decoder is given exactly by a small grammar: accepted with these headers and table (C68_iff_partial), refused (C68_refused_iff_partial), endless (C10_endless_iff_partial).

Theorems: `C68_iff_partial`, `C68_refused_iff_partial`, `C68_violated_static`, `C68_violated_index`, `C68_violated_eos`, `C68_sound_partial`.

### C69 Heads arriving in pieces: verdicts are final and do not depend on the segmentation

Reading a request or response head from a network in pieces, parsing all bytes received so far after each piece with the same object and stopping at the first answer that is not Partial, gives the same verdict and the same message as parsing all the bytes at once with any object; and a verdict other than Partial never changes when more bytes arrive.

Model and proof: Spec/Pieces.lean states the reading caller `feed`. Every reader of the head chain is shown `Final` (an error other than Partial is kept by every continuation) compositionally, next to `Streams` (an answer ok is kept); induction on the pieces with C60's independence of the object.

Result (proved): Two finality theorems and two segmentation theorems, for requests and responses.

Theorems: `C69_request_final`, `C69_response_final`, `C69_request`, `C69_response`.

### C70 Partial is never hopeless: some continuation brings a verdict

If parsing a head answers Partial, then there are bytes after which the parser accepts or rejects it: a caller that waits for more input on Partial cannot be made to wait forever whatever the peer sends.

Model and proof: False: word targets, half escapes and stray control bytes after the version or reason answer Partial for every continuation (proved by Streams step by step). Partial: for printable heads with LF after each CR (and, for requests, a target beginning with / and no %), a continuation is constructed reader by reader (`Helps`).

Result (partial): Violated for requests (target `x`, target `/%4`, tab after the version) and for responses (tab after the reason): Partial for every continuation. Exactly when (C70_response_iff_partial, C70_request_iff_partial): the start line is followed by a byte that is neither printable nor a line end, or a field line with an empty value has its CR followed by something that is no line end, or (requests) the head is complete and the target is an incomplete URL, all of which C70_url_iff_partial lists. For every other buffer a continuation brings a verdict.

Theorems: `C70_violated_target`, `C70_violated_escape`, `C70_violated_tab`, `C70_violated_response_tab`, `C70_request_violated`, `C70_response_violated`, `C70_response_partial`, `C70_request_partial`, `C70_response_iff_partial`, `C70_url_iff_partial`, `C70_request_iff_partial`.

### C71 Several HTTP/1 messages on one connection are read back one by one

Messages with clean headers serialised back to back on one connection, each with no body, a body of Content-Length bytes, or a chunked body, are read back in order, each with exactly its own body, by a caller that uses parse_buffer, is_chunked, get_body_len and parse_chunk_data with one reused message object; if the stream is cut anywhere, the complete messages are read and the caller is then told Partial.

Model and proof: Spec/Conversation.lean states the receiving caller (`receive`, `converse`) and what a framed body is. Induction on the messages over C38-C43 (head exactness, body length, chunk round trip and truncation).

Result (partial): Responses in full (whole streams and streams cut anywhere); requests: read back exactly if each is one of those C41 can carry (C71_requests_iff_partial), also if the last is cut short (C71_requests_partial); violated for others (C71_violated_requests, C109_violated_split).

Theorems: `C71_responses`, `C71_responses_cut`, `C71_requests_partial`, `C71_requests_iff_partial`, `C71_violated_requests`.

### C72 Connection options and codings are recognised as RFC 9110 lists

is_keep_alive, get_upgrade_protocol and is_chunked tell whether the Connection or Transfer-Encoding header lists keep-alive, upgrade or chunked: as a comma-separated element, white space around it ignored, in upper or lower case.

Model and proof: False: the search is for one spelling and for substrings. Partial: equal to list membership when the option is spelled as the code expects and no other element contains the word, by showing that a word without commas and spaces occurs in a value iff it occurs in one of its elements. Props/OptionsExact.lean: what is recognised, in terms of the elements of the list.

Result (partial): Violated: `Connection: keep-alive` and `Transfer-Encoding: Chunked` are not recognised, `x-unchunked` is. Partial: an option is recognised exactly if some element of the list has the word inside in the code's spelling (C72_elements_iff_partial), so the claim holds of a value of one element exactly if this is the word as spelled or neither is the word nor has it inside (C72_one_iff_partial).

Theorems: `C72_violated`, `C72_violated_case`, `C72_violated_substring`, `C72_spelled_partial`, `C72_absent`, `C72_elements_iff_partial`, `C72_chunked_iff_partial`, `C72_one_iff_partial`.

### C73 Heads that RFC 9112 allows are accepted and understood

Every response head and every origin-form request head that the grammar of RFC 9112 and RFC 9110 generates is accepted by parse_buffer to its last byte, with status or method, version, and for every field name the value RFC 9110 5.3 gives it (the values of all lines of that name, joined with commas).

Model and proof: Spec/Grammar.lean writes down the grammar. False in five ways, two of them proved for every head of the kind (no reason: error; unregistered method: error). Partial theorems: every head with a plain reason is accepted with its raw lines (through C74's exact language), equal to the RFC meaning when blanks are tidy and names distinct, last line wins otherwise.

Result (partial): Violated: empty reason rejected (always), methods outside the nine rejected (always), repeated names keep only the last value, blanks after values and tabs before them kept, `X-A` and `XMA` confused. Partial: exact description for all heads with a plain reason or a registered method.

Theorems: `C73_response_partial`, `C73_request_partial`, `C73_fields_partial`, `C73_last_partial`, `C73_violated_reason`, `C73_violated_method`, `C73_violated_response`, `C73_violated_blanks`, `C73_violated_names`, `C73_violated_request`.

### C74 The language accepted as an HTTP/1 head

parse_buffer accepts only heads that RFC 9112 generates (empty lines before them apart); in particular header values contain no control characters and no spaces stand before the colon.

Model and proof: False: NUL and LF in values, space before the colon, space as a line end. The exact accepted language is stated as a grammar (AcceptedResponse, AcceptedRequest) and proved to be the parser's language by inverting and replaying every reader (iff).

Result (partial): Violated: NUL, bare LF in values (written out again unchanged, so the next recipient may see another header), `Content-Length : 5`, a space as line end. Partial: the exact accepted language as an iff, for responses and requests.

Theorems: `C74_response_iff_partial`, `C74_request_iff_partial`, `C74_violated_response`, `C74_violated_request`, `C74_violated_smuggle`, `C74_violated_colon`, `C74_violated_line`.

### C75 Exactly the HTTP/2 frames that RFC 9113 allows are accepted

A DATA, PRIORITY, RST_STREAM, SETTINGS, PING, GOAWAY or WINDOW_UPDATE frame read off the wire is accepted exactly if RFC 9113 section 6 allows it (stream, length, padding, values), flags that mean nothing for its kind are ignored, and the value returned is the one the RFC gives the payload.

Model and proof: Spec/Rfc9113.lean gives the meaning of every frame without a header block as a relation (FrameMeans) and, separately, the relation the code implements (FrameTaken). The latter is proved to be exactly what readFrame does; the former is proved to be exactly what it does outside named exceptions; each exception is proved to be one for all frames of its form.

Result (partial): Violated: flag bits without a meaning make a frame unreadable (all kinds) or eat its first byte (bit 8 on PING and others); RST_STREAM and PRIORITY on stream 0, GOAWAY on another stream and PRIORITY longer than five bytes are accepted. Partial: the exact accepted set as an iff, and agreement with the RFC for all other frames.

Theorems: `C75_taken_iff_partial`, `C75_checked_partial`, `C75_violated_unknown_flag`, `C75_violated_padded_ping`, `C75_violated_streams`, `C75_violated`, `C75_unknown_kind_partial`.

### C76 A received HTTP/2 frame reports its stream, flags and kind

Frame::stream_id and Frame::flags of a frame read are the stream and flags it was sent with; is_data, is_header, is_end_stream and is_end_headers answer according to its kind and flags; every Flag setter changes only its own bit.

Model and proof: Model/FrameAccess.lean; every frame read is one of the three forms of readFrame_cases; the value of each accessor follows. The setters are checked on all 256 bytes by the kernel.

Result (partial): Violated: a PRIORITY frame reports stream 0 whatever stream it came on, and an acknowledged PING reports flags 0. Partial: exact value of stream_id and flags for every frame. Proved: the four questions and the setters.

Theorems: `C76_stream_partial`, `C76_flags_partial`, `C76_questions`, `C76_violated_priority`, `C76_violated_ping`, `C76_violated`, `C76_flag_bits`.

### C77 PUSH_PROMISE frames are understood

Reading what PushPromise::encode wrote gives the same stream, the promised stream and the promised request, and leaves the reader's header table in step with the writer's, so later header blocks are still readable; a promise too short to name a stream is refused.

Model and proof: The parser is proved to skip the header block whatever it is (so the request is always lost and the table never changes) while the ids survive; a connection of three frames is the witness that a later HEADERS frame can not be read.

Result (partial): Violated: the request is always lost; the reader's table goes out of step and a later HEADERS frame fails; promises shorter than four bytes are taken as promises of stream 0. Partial: stream and promised stream survive, and what follows is the block of the remaining fields on the promised stream.

Theorems: `C77_read_partial`, `C77_ids_partial`, `C77_violated_request`, `C77_violated`, `C77_violated_step`, `C77_violated_short`.

### C78 The pseudo-headers made for a URL carry that URL

Building HTTP/2 request parts from a method and a URL with a host (Parts::request) and making the URL of the request from those parts as a receiver does (build_url) gives back the URL: scheme, host, port, path and query.

Model and proof: Model/PartsRequest.lean: Parts::request and Parts::response. Exact result of the receiver for plain paths, the exact condition (iff) for the URL to survive, universal violations for every URL with a port other than the default or a query.

Result (partial): Violated: port, query and user information are never sent; the path is sent decoded, so one with a space is refused and one with a decoded percent sign is decoded twice. Partial: what is received for plain paths and the exact condition for equality.

Theorems: `C78_received_partial`, `C78_exact_partial`, `C78_hostless_partial`, `C78_scheme_partial`, `C78_violated_query`, `C78_violated_port`, `C78_violated_path`, `C78_violated`.

### C79 SETTINGS built with the setters reach the peer

After any sequence of setter calls every setting has the value of the last call that names it and the others are absent; a frame size outside 2^14..2^24-1 panics; the frame written is read by the peer as those settings.

Model and proof: Model/SettingsApi.lean: the setters and questions. Spec/SettingsApi.lean: the last call about each setting. Induction over the calls; exact condition for the peer to take the frame.

Result (partial): Violated: set_initial_window_size accepts windows above 2^31-1 and the CONNECT switch any number, and the peer refuses the frame. Proved: setters and questions. Partial: exactly which settings the peer reads.

Theorems: `C79_setters`, `C79_switches`, `C79_read_partial`, `C79_violated`.

### C80 Static and owned header names and values behave alike

Two histories of header map operations that use the same texts, some as static strings and others as owned bytes, return the same results and end in maps that are equal and answer every question alike.

Model and proof: Model/HeaderVariants.lean models names, values and the map with their variants; it is proved to refine the byte-only model used by the other claims (C80_refines), from which equality of answers follows except for the length of the body.

Result (partial): Violated: get_body_len reads a Content-Length of +5, --5 or 2^63 differently for the two variants (a panic in one case). Proved: the byte-only model is a refinement, and all other answers agree. Partial: agreement of the body length for plain decimal numbers.

Theorems: `C80_refines`, `C80_same_partial`, `C80_equal_values`, `C80_equal_names`, `C80_violated_length`, `C80_violated`.

### C81 Exactly the chunks of RFC 9112 are accepted

parse_chunk_data accepts a buffer exactly if it starts with a complete chunk of RFC 9112 section 7.1 (with extensions allowed and ignored), and returns the length of its line and of its data; it reports an incomplete chunk exactly for a proper prefix of one.

Model and proof: Spec/Chunk.lean has the grammar. The accepted language and the language called incomplete are both proved exactly (iff); differences from the grammar are proved for all chunks of each form.

Result (partial): Violated: a chunk with an extension is called incomplete for ever, as is any other byte after the size; the two bytes after the data are not looked at; a single space can end the size line; trailer fields are cut. Partial: exact languages, all chunks without extension, and whole bodies of such chunks.

Theorems: `C81_taken_iff_partial`, `C81_incomplete_iff_partial`, `C81_conforming_partial`, `C81_body_partial`, `C81_violated_extension`, `C81_violated_forever`, `C81_violated_end`, `C81_violated_space`, `C81_violated_trailer`, `C81_violated`.

### C82 Fragmented WebSocket messages with control messages between the fragments arrive

A sequence of messages written on one connection, each cut into frames at any places and with control messages between the frames of a data message, is received as the same messages in the order in which they are completed, whatever bytes follow.

Model and proof: Spec/WsConnection.lean describes what is sent and a receiver that reads frames, hands control messages over at once and collects the fragments of a data message. Induction over the connection and over the frames of a message.

Result (proved): Proved.

Theorems: `C82_connection`.

### C83 Exactly the WebSocket frames of RFC 6455 are accepted

The frame reader accepts a buffer exactly if it starts with a frame of RFC 6455 section 5.2 that is masked as the reader demands, has no reserved bits and a known opcode, and returns its parts and the bytes after it.

Model and proof: Model/WsReader.lean models the reader with its state on failure; Spec/Rfc6455.lean has the frames. The accepted language is proved exactly (iff), with violations for all frames of each wrong form.

Result (partial): Violated: should_be_masked is not looked at, and reserved bits and unknown opcodes are accepted. Partial: the exact language accepted, every conforming frame is taken, and what is taken is a frame.

Theorems: `C83_taken_iff_partial`, `C83_conforming_partial`, `C83_sound_partial`, `C83_violated_mask`, `C83_violated_reserved`, `C83_violated`.

### C84 Exactly the WebSocket messages of RFC 6455 are accepted

A list of frames is accepted as a message exactly if it is a message of RFC 6455: the opcode on the first frame, continuation frames after it, FIN on the last frame only, control messages not fragmented, text valid UTF-8, and a close code that may be sent.

Model and proof: Spec/Rfc6455.lean has the messages of sections 5.4, 5.5 and 7.4. The lists accepted are proved exactly (iff), with violations for all lists of each wrong form.

Result (partial): Violated: FIN is not looked at, fragmented control messages and any close code are accepted. Partial: the exact lists accepted, and every conforming message is accepted.

Theorems: `C84_accepts_iff_partial`, `C84_conforming_partial`, `C84_violated_fin`, `C84_violated_control`, `C84_violated_code`, `C84_violated`.

### C85 A WebSocket frame that arrives in pieces can be read when it is complete

Reading an incomplete frame reports that more is needed and leaves the bytes in the buffer, so that reading again once the rest has arrived gives the frame.

Model and proof: Model/WsReader.lean keeps what the reader has consumed when it fails. Prefix induction over the header; the retry is proved to fail for every frame cut after its first byte.

Result (partial): Violated: the reader consumes the header bytes of an incomplete frame, so reading the rest later never gives the frame. Partial: an incomplete frame always gives the I/O error, and a caller that keeps the bytes can read them again.

Theorems: `C85_waits_partial`, `C85_again_partial`, `C85_violated_always`, `C85_violated`.

### C86 Hexadecimal text is converted exactly

hex_to_vec converts a text of hexadecimal digits, two for each byte, to those bytes, and refuses every other text without panicking.

Model and proof: Model/HexText.lean and the relation HexText of Spec/HexText.lean. The texts converted and the result are proved exactly (iff), and the panics.

Result (partial): Violated: a last odd digit is dropped silently, and a character that is no digit panics. Partial: the exact result for every text.

Theorems: `C86_converts_partial`, `C86_exact_partial`, `C86_panics`, `C86_violated`.

### C87 A built URL is what the calls say and survives its text form

Url::builder() followed by any calls gives a URL with the last value given for each part, or the error of a scheme of more than 64 bytes; if a scheme and host were given, printing and parsing it gives it back, with the default port if none was given.

Model and proof: Model/UrlBuilder.lean. Induction over the calls for the parts (iff) and the error (iff); the text form by the round trip of C48 generalised to URLs without a port.

Result (partial): Violated: a path that does not start with a slash is read back as part of the host (for every host and path), and a user name without a password comes back with the empty password. Proved: the parts and the error. Exact for builders given a scheme and a plain host: the text survives if and only if the path starts with a slash, the user information is complete and no part has separators (C87_survives_iff_partial).

Theorems: `C87_built`, `C87_error`, `C87_survives_partial`, `C87_violated_host`, `C87_violated_user`, `C87_violated`, `C87_survives_iff_partial`.

### C88 Messages are printed as they are sent

Displaying a request or response gives exactly the bytes that serialize writes for it, and the printed form is always valid UTF-8 text.

Model and proof: Model/Display.lean has the four Display implementations, Spec/Utf8.lean RFC 3629 as a relation, to which the model of from_utf8 and from_utf8_lossy is proved equal. Exact condition (iff) for equality of the two forms; the printed form is UTF-8; a printed response is read back.

Result (partial): Violated: a header value that is no UTF-8 is printed with replacement characters. Partial: printed and sent forms agree exactly if all header values are UTF-8.

Theorems: `C88_request_iff_partial`, `C88_response_iff_partial`, `C88_violated`, `C88_request_text`, `C88_response_text`, `C88_response_reads_back`.

### C89 A WebSocket message means the same borrowed and owned

Converting a Message to an OwnedMessage and back, or building either with its constructors, gives the same frame on the wire and the same answers to is_control, is_data, is_close, is_ping and is_pong.

Model and proof: Model/WsMessage.lean has both types and their conversions. Exact condition (iff) for the wire form to survive, and the constructors and questions for all messages.

Result (partial): Violated: the payload of a close message without a status is dropped by the conversion. Partial: the exact messages that survive.

Theorems: `C89_same_iff_partial`, `C89_violated_close`, `C89_violated`, `C89_constructors`, `C89_received_partial`, `C89_pong`, `C89_questions`.

### C90 A conforming HTTP/2 receiver hears what was sent

Whatever control frames, header lists and bodies are written on one connection, a receiver that follows RFC 9113 and RFC 7541 (frames within its limit, CONTINUATION frames put together, its own dynamic table) hears exactly those, in order, with the ends of streams.

Model and proof: Spec/Rfc9113Connection.lean describes the receiver from the RFCs as a relation, proved to have one reading for every octet string. Induction over the connection with the invariants of the encoder's table, using the RFC 7541 reading of header blocks (C67) and the frames of C15, C17, C19 and C75.

Result (partial): Violated: the end of the stream is not heard when a header list needs several frames, because END_STREAM is put on the last CONTINUATION frame. Partial: everything else is heard for all connections, and everything if each header list fits one frame. Exact: what is sent is heard as sent if and only if no CONTINUATION frame among the octets carries END_STREAM (C90_iff_partial).

Theorems: `C90_iff_partial`, `C90_one_hearing`, `C90_heard_partial`, `C90_connection_partial`, `C90_violated_end`, `C90_violated`.

### C91 Header lists have their pseudo-header fields in front

The header list that a conforming receiver hears for a request or response has all pseudo-header fields before the regular fields, as RFC 9113 section 8.3 demands.

Model and proof: On top of C90: the list heard is determined, so the order can be decided for every message (iff).

Result (partial): Violated for every message with both a pseudo-header and a field: Parts::encode_header appends the pseudo-headers. Partial: exactly the messages without one of the two are right.

Theorems: `C91_iff_partial`, `C91_violated_order`, `C91_violated`.

### C92 A conforming HTTP/2 receiver hears a promise with its request

A push promise is heard by a receiver that follows RFC 9113 and RFC 7541 as a promise on that stream of the promised stream, with all pseudo-headers and fields of the request.

Model and proof: Same receiver as C90 with PUSH_PROMISE frames. What is heard is proved exactly, for every promise and table.

Result (partial): Violated for every promise: the fields of the request are written in a HEADERS frame on the promised stream, even if there are none. Partial: the promise is heard with the pseudo-headers of the request, and the tables stay in step.

Theorems: `C92_heard_partial`, `C92_violated_request`, `C92_violated`.

### C93 What a conforming HTTP/2 peer says is read as meant

Frames from a peer that follows RFC 9113 and RFC 7541 are read as the frames that peer means: the same control frames, and for every header list the same method, scheme, authority, path, status and field values (several lines of one field being one list, several cookie lines one cookie).

Model and proof: Spec/Rfc9113Peer.lean says what a header list means by RFC 9113 8.2 and 8.3 and RFC 9110 5.3, on the receiver relation of C90. Induction over the conversation with the decoder's table in step with that of RFC 7541; exact account of what is kept of a header list.

Result (partial): Violated: of several lines of one field only the last value is kept, for all names and values; no conversation with a CONTINUATION frame is read; no header list with a method outside the nine known ones is read. Partial: any conversation without padding, CONTINUATION, long integers and table size updates is read, each header list kept with the last value of each name; it is understood as meant if no name repeats and none has ~ or ^, and where no name has ~ or ^ exactly if no name repeats (C93_iff_partial).

Theorems: `C93_iff_partial`, `C93_plain_is_heard`, `C93_reported_partial`, `C93_understood_partial`, `C93_violated_repeated`, `C93_violated_continuation`, `C93_violated_method`, `C93_violated`.

### C94 Malformed HTTP/2 header lists are refused

A HEADERS frame whose header list is malformed by RFC 9113 section 8.2 or 8.3 (capital letters or other bytes in names, CR, LF or NUL in values, unknown, repeated, mixed or misplaced pseudo-header fields) is not accepted.

Model and proof: Exact condition (iff) for a header list to be accepted and exact account of the frame that results, for every block that decodes; counterexamples for all names and values.

Result (partial): Violated: every name that is UTF-8 and every value are accepted, CR and LF included; requests and responses may be mixed and pseudo-headers repeated or after fields. Partial: accepted exactly if the list is within the limit and method, scheme and status values can be parsed.

Theorems: `C94_accepted_iff_partial`, `C94_meaning_partial`, `C94_violated_anything`, `C94_violated_pseudo`, `C94_violated`.

### C95 A field received over HTTP/2 stays one field in HTTP/1 text

When the fields of a message received over HTTP/2 are written as HTTP/1 text, a reader of that text finds those fields, nothing more and nothing less.

Model and proof: The fields of a received frame are a history of insertions with names and values from the header list, so that the exact condition of C37 applies.

Result (partial): Violated: for all names and values, one HTTP/2 field can carry a second one behind CR LF in its value which appears in the HTTP/1 text (header injection). Partial: exact condition (iff), and always for header lists that are not malformed.

Theorems: `C95_iff_partial`, `C95_wellformed_partial`, `C95_violated_injection`, `C95_violated`.

### C96 Where a request's body ends is what RFC 9112 says

For an accepted HTTP/1 request, is_chunked and get_body_len say where the body ends as RFC 9112 section 6.3 does, and a request whose framing RFC 9112 calls invalid (differing or malformed Content-Length, a last transfer coding other than chunked) is not accepted.

Model and proof: Spec/BodyKind.lean gives RFC 9112 6.3 on the field lines of the grammar of C73. Exact account of the two questions in terms of the last line of each name, then agreement for the well-behaved heads and counterexamples for all lengths.

Result (partial): Violated, for all values: differing Content-Length lines accepted (last wins), malformed and negative lengths accepted, a name one byte off taken for Content-Length or hiding it, 'Transfer-Encoding: Chunked' not seen so that a chunk is read as the next request. Exact for tidy blanks and names that are not confused (C96_iff_partial): right if and only if the last coding is chunked and the last line of codings has the word in lower case, or there is no body, or the last Content-Length line is the number and below 2^63.

Theorems: `C96_iff_partial`, `C96_last_partial`, `C96_length_partial`, `C96_chunked_partial`, `C96_violated_differing`, `C96_violated_malformed`, `C96_violated_negative`, `C96_violated_name`, `C96_violated_hidden`, `C96_violated_smuggle`, `C96_violated`.

### C97 Checking a request before it is promised

PushPromise::validate_request accepts exactly the requests that RFC 9113 section 8.4 lets a server promise: a safe and cacheable method, and no content.

Model and proof: Model validate_request on the request of C40; spec from the method tables of RFC 9110 and the Content-Length header; exact condition (iff).

Result (partial): Violated: the test for content is the wrong way round. With at most one Content-Length the request is accepted exactly if it has content, so every request that may be promised is refused and every GET with content is accepted. Partial: the method is checked as it should be.

Theorems: `C97_method_partial`, `C97_violated_reversed`, `C97_violated_refused`, `C97_violated_content`, `C97_violated`.

### C98 A received frame can be sent on

A frame that Frame::parse made of a peer's bytes can be given to Frame::encode, and the reader of the result gets the same frame.

Model and proof: What can come out of the reader is known from C75/C76; show that it is in the domain of the round trips C15-C25, or that the result cannot be the same frame, for all frames of the kind.

Result (partial): Violated for all frames of these kinds: DATA with padding (flag kept, pad length not written), PRIORITY (never readable), HEADERS with pseudo-headers (not written), PUSH_PROMISE (fields lost, a HEADERS frame added). Partial: RST_STREAM, SETTINGS, PING, GOAWAY, WINDOW_UPDATE, DATA without padding, and trailers.

Theorems: `C98_control_partial`, `C98_data_partial`, `C98_violated_padded`, `C98_violated_priority`, `C98_headers_partial`, `C98_trailers_partial`, `C98_violated_head`, `C98_violated_promise`, `C98_violated`.

### C99 What a header block can be made into

Decoding header blocks takes no more memory than what was received and the limits in force allow. A block of n bytes gives at most n fields, and the size of the header list (RFC 9113 6.5.2) is at most n times the size of the dynamic table (or 64) plus 5; over a connection the same holds for all blocks together, and the table never exceeds its limit. And a HEADERS frame is not decoded past the first field that exceeds the header list limit given to Headers::parse.

Model and proof: The models of the decoder and of HEADERS frames as they are. By induction over the rounds of the decoder: each round that yields a field consumes at least one byte; a field from a table has at most the size of the table, a string has at most 8/5 times the bytes it is written in (no code word is shorter than 5 bits), and a name at most 3 times that (an ill-formed byte becomes the three bytes of U+FFFD).

Result (partial): C99_bound and C99_connection prove the bound for one block and for a connection. The last sentence is false: Headers::parse decodes the whole block and only then adds up the sizes, so for every limit m there are blocks of 4037 + n bytes that are made into a list of 4064 * (n + 1) bytes before they are refused (C99_violated_limit, C99_violated).

Theorems: `C99_bound`, `C99_connection`, `C99_violated_limit`, `C99_violated`.

### C100 Copies of messages are copies

replace_clone hands out a message with the method or status, version, URL, headers, system values, extensions and body of the original, and leaves the original unchanged but for the new body. Exchanging the body with into and exchanging it back gives the message back. from_parts of into_parts of a response is that response. A response turned into one with a Binary body by into_binary is sent as the same bytes, or not sent with the same error.

Model and proof: Model/Copies.lean: whole messages (head, systems, extensions, body), generic in the type of extension keys, in the values and in the body. The extensions are those of Model/Extensions.lean; what can be seen of two messages is compared (Spec/Copies.lean).

Result (partial): replace_clone copies of the extensions only the header table: the copy is a copy exactly if nothing else is stored (C100_request_iff_partial, C100_response_iff_partial) and loses every other extension (C100_violated_extension). from_parts forgets that a response is incomplete (C100_parts_iff_partial). into_binary drops the error of a body that cannot be serialized and sends what was written until then (C100_violated_error); C100_binary_partial is the other case, C100_into the claim about into.

Theorems: `C100_request_iff_partial`, `C100_response_iff_partial`, `C100_violated_extension`, `C100_violated_clone`, `C100_into`, `C100_parts_iff_partial`, `C100_violated_parts`, `C100_binary_partial`, `C100_violated_error`.

### C101 Headers by index

map[name] = value is the same as insert(name, value): it never panics, the first header of that name (in any case) gets the value and keeps its place, all others stay as they are, and a name that was missing is appended. map[name] then is the value. Changing map[name] in place applies the change to the value of the first such header, or to an empty one appended. Reading map[name] panics exactly if there is no such header.

Model and proof: Model/MapIndex.lean: index and index_mut, the latter as the map after a given change through the reference. Induction over the map; a map either has no header of the name or splits at the first.

Result (proved): C101_present, C101_absent and C101_assign prove all of it.

Theorems: `C101_present`, `C101_absent`, `C101_assign`.

### C102 Answers to PING and SETTINGS

What is read as a PING is a frame of eight bytes on stream 0; ret_pong of it is written as the PING frame on stream 0 with the ACK flag and the same eight bytes, which the peer reads as that answer. Settings::ack is written as the empty SETTINGS frame with the ACK flag, which the peer reads as an acknowledgment that sets nothing.

Model and proof: Model/Answers.lean adds new, pong, ret_pong and Serialize of Ping to the frame model. Inverting the reader gives exactly the streams from which a PING is read; the round trip is C15.

Result (partial): C102_pong, C102_ping and C102_settings_ack prove the claims about answers. What is read as a PING is not always a frame of eight bytes: with the flag 0x8, which means nothing for PING, the first of nine bytes is thrown away as a pad length; C102_read_iff_partial has exactly the streams from which a PING is read.

Theorems: `C102_read_iff_partial`, `C102_violated`, `C102_pong`, `C102_ping`, `C102_settings_ack`.

### C103 Numbers and frames on the wire

Stream identifiers, size increments, error codes and 24-bit lengths are written as big-endian numbers and read back; the reserved bit of stream identifiers and size increments is ignored. Serialize for Frame writes what Frame::encode writes, and encoded_len is its length.

Model and proof: Model/Answers.lean: parse, encode and serialize of the number types and Serialize of Frame. Arithmetic on big-endian numbers; for frames, every encoding has at least the nine bytes of a frame header.

Result (partial): True of stream identifiers (C103_streamId, C103_streamId_iff: exactly those below 2^31) and lengths (C103_u24). A size increment keeps the reserved bit (C103_violated_increment; C103_increment_partial otherwise). ErrorCode::parse gives 0 whatever is there, so a code comes back exactly if it is 0 (C103_errorCode_iff_partial). Serialize for Frame writes nothing, and encoded_len is 0, for every frame (C103_violated_frame).

Theorems: `C103_u64`, `C103_u64_short`, `C103_u64_back`, `C103_streamId`, `C103_streamId_iff`, `C103_streamId_short`, `C103_u24`, `C103_increment_partial`, `C103_violated_increment`, `C103_errorCode_iff_partial`, `C103_violated_numbers`, `C103_violated_frame`, `C103_violated_serialize`.

### C104 is_partial tells an incomplete message from a wrong one

If a reader is given the beginning of something it could read, and something is missing, then the error it gives answers is_partial with true: heads of requests and responses, chunks, HTTP/2 frame headers, WebSocket frames.

Model and proof: is_partial over the errors of the existing readers; the prefixes of heads and chunks are C38 and C42, those of WebSocket frames C85.

Result (partial): True of heads and chunks (C104_http1_partial). False of frame headers, where no error is partial (C104_violated_http2), and of WebSocket frames, where a prefix gives an I/O error (C104_violated_ws).

Theorems: `C104_http1_partial`, `C104_violated_http2`, `C104_violated_ws`, `C104_violated`.

### C105 Where the body of a response ends

An accepted response has a framing that RFC 9112 6.3 allows, and is_chunked and get_body_len say where its body ends as RFC 9112 6.3 does: no body for 1xx, 204 and 304, in chunks if the last transfer coding is chunked, until the connection is closed for another coding, the value of Content-Length, and until the connection is closed if there is neither field.

Model and proof: Spec/ResponseBody.lean states 6.3 as a function of the field lines; response heads by grammar (IsResponseHead of Spec/Http1), the accepted headers by C73.

Result (partial): What the two functions say of every accepted head is C105_last_partial. They agree with RFC 9112 for one numeral in Content-Length (C105_length_partial) and for chunked in lower case (C105_chunked_partial). A body that ends with the connection is said to be empty (C105_violated_untilClose), a 304 with Content-Length is said to have a body (C105_violated_noContent), gzip after chunked is said to be chunked (C105_violated_coding). Exact for responses that may have a body (C105_iff_partial).

Theorems: `C105_iff_partial`, `C105_last_partial`, `C105_length_partial`, `C105_chunked_partial`, `C105_violated_untilClose`, `C105_violated_noContent`, `C105_violated_coding`, `C105_violated`.

### C106 Comparing URLs with text

A URL read from a text equals that text (Url == str), and a text equals at most one URL: comparing with a text is comparing with the URL that the text is.

Model and proof: Model/UrlEq.lean. One spelling is canonical (Spec/UrlEq.lean): kept characters stand for themselves, all others are escaped in upper case. The parser is characterised by C49, Display by C46 and C48.

Result (partial): An origin-form URL equals its text exactly if the spelling is canonical (C106_origin_iff_partial), an absolute URL exactly if user, password, path and query are spelled canonically, the host has no escapes, the port is written exactly if the scheme does not imply it and the path is written (C106_absolute_iff_partial); a text equal to a URL that text can carry is read as that URL exactly if its parts have no separators (C106_read_iff_partial), and for such URLs the text determines the URL (C106_unique_partial). Otherwise a URL without a path or with the port 80 written out never equals its own text (C106_violated_path, C106_violated_port), and two URLs with different hosts equal the same text (C106_violated_unique).

Theorems: `C106_origin_iff_partial`, `C106_unique_partial`, `C106_violated_path`, `C106_violated_port`, `C106_violated_escape`, `C106_violated_unique`, `C106_violated`, `C106_violated_second`, `C106_absolute_iff_partial`, `C106_read_iff_partial`.

### C107 Ready-made responses arrive with their body

A response made by Response::text, json, status404, status503, status502 or status500 and given a body is built with its status and content type, is written for every body, and a receiver of the bytes gets the same response with the same body, and what follows as what follows.

Model and proof: Model/ReadyMade.lean: the constructors as calls of the response builder of C64. Receiving is receive of Spec/Conversation.lean, as for C62.

Result (partial): Every ready-made response with a body that is not empty is received with an empty body, and the body is read as the next response (C107_violated_ready, C107_ready_iff_partial); so is every built response without a framing field (C107_violated_built). With the right Content-Length the body arrives (C107_built_partial, C107_length_partial).

Theorems: `C107_violated_built`, `C107_built_partial`, `C107_violated_ready`, `C107_length_partial`, `C107_ready_iff_partial`, `C107_violated`.

### C108 Bodies received over HTTP/2 and sent on over HTTP/1.1

A request (response) made from a HEADERS frame and written as HTTP/1.1 with the bytes of its DATA frames as its body is received as the same request (response) with this body, and what is sent next on the connection is read as what it is.

Model and proof: Spec/Forward.lean. into_request as a run of the builder by C63, its framing fields by C64, the head by C41 and C39, the body by receive of Spec/Conversation.lean.

Result (partial): A request whose only framing field is Content-Length arrives with its body exactly if that is the length of the body, which the code does not check (C108_length_iff_partial, for responses C108_response_iff_partial). Without Content-Length, which HTTP/2 allows, every body is read as the next request (C108_violated_lost, C108_violated_lost_response); a smaller Content-Length or transfer-encoding: chunked makes the end of the body the next request (C108_violated_short, C108_violated_chunked).

Theorems: `C108_violated_lost`, `C108_length_partial`, `C108_length_iff_partial`, `C108_violated_short`, `C108_violated_chunked`, `C108_violated_lost_response`, `C108_response_iff_partial`, `C108_violated`, `C108_response_violated`.

### C109 A message that is received and written again

A request (response) that was accepted and is written again, by a proxy say, is read from what was written as one request (response), with the method, version and headers (status, version and headers) it had, and its body is what is left.

Model and proof: Spec/Rewrite.lean: percent-escapes of any text. Accepted heads by C74, what is written by http1_data, read again by C37, C41 and C71.

Result (partial): Responses: proved (C109_response). Requests: any two requests can be put into the escaped target of one, which is accepted and is written as these two (C109_violated_split). With a printable path, what is accepted again has the method, version, headers and body it had (C109_printable_partial); which accepted requests are read back with their path and query, exactly: C109_iff_partial.

Theorems: `C109_iff_partial`, `C109_violated_split`, `C109_printable_partial`, `C109_response`, `C109_violated`.

### C110 Texts of error codes and errors tell them apart

The error codes of HTTP/2 have the numbers and names of RFC 9113; Debug and Display print different codes differently; Display prints different errors differently.

Model and proof: Model/Reason.lean. The table of RFC 9113 section 7 in Spec/Reason.lean; the hexadecimal numerals by hexLower_spec.

Result (partial): Codes, names and Debug: proved (C110_names, C110_debug). Display prints all unknown codes alike (C110_display_iff_partial), and all HTTP/2 errors, and WebSocket protocol errors, as nothing (C110_errors_iff_partial).

Theorems: `C110_names`, `C110_debug`, `C110_display_iff_partial`, `C110_violated_display`, `C110_errors_iff_partial`, `C110_violated_errors`.

### C111 Frames in a queue by priority

PriorityFrame is compared by a total order that agrees with equality; only equal frames are equal; frames leave a queue by falling weight and those of one weight in the order in which they were put in.

Model and proof: Model/Reason.lean; a queue is any that empties in an order the comparison allows (Spec/Reason.lean, Emptied).

Result (partial): The order is total and agrees with equality (C111_total); weights fall and with distinct weights the order is determined (C111_order_partial). Frames of one weight are equal whatever they are, and may leave in any order (C111_violated_equal).

Theorems: `C111_total`, `C111_order_partial`, `C111_violated_equal`, `C111_violated_eq`, `C111_violated_order`.

### C112 The first word on a connection decides the protocol

A text is taken for a request only if its first word is a method and for a response only if its first word is a version; otherwise it is rejected, not reported as incomplete, as soon as that word has ended, whatever follows. So what is accepted as a request is rejected as a response and the other way round, and HTTP2_MAGIC, the connection preface of RFC 9113, is rejected as both from its fourth octet on.

Model and proof: Model/Preface.lean; the octets of RFC 9113 3.4 in Spec/Preface.lean. The first word by skipEmptyLines_iff and parseToken_eq, accepted heads by C74.

Result (proved): Proved.

Theorems: `C112_request_word`, `C112_response_word`, `C112_request_not_response`, `C112_response_not_request`, `C112_magic`, `C112_preface`, `C112_preface_start`, `C112_accepted`.

### C113 What is read is bounded by what it was read from

Reading does not make input grow without bound. The parts of a URL together are no larger than its text. The names and values of the headers of an accepted message together are no larger than the bytes consumed, and there are at most a quarter as many headers as bytes. A request with its URL, into which host and scheme are copied from the headers, takes at most four times the bytes consumed, and this factor is reached in the limit. A chunk lies within the bytes given with its line end, and a WebSocket payload is at least two bytes shorter than the frame consumed.

Model and proof: Spec/Bulk.lean counts the bytes. URLs: an invariant of the loop, one byte at most per byte read, and decoding never lengthens. Messages from the exact grammars of C74; lossy decoding at most triples. Chunks and frames from C81 and C83.

Result (proved): Proved. C113_sharp gives, for every k, a request head of k + 25 bytes whose headers and URL take 4k + 9.

Theorems: `C113_url`, `C113_response`, `C113_request`, `C113_sharp`, `C113_chunk`, `C113_frame`.

### C114 Displaying a URL and reading it settles at once

The text of a URL that was read is a normal form: it is read again, and the URL read from it is displayed as the same text. So a check made on the displayed URL holds for whoever reads that text.

Model and proof: Props/Normal.lean. Positive part from C48 after moving a ? from the path into the query; exactness from C106; a family of texts escaped k times for the negative part.

Result (partial): Violated: the host is decoded when read and not encoded when displayed, so http://%2541/ shows the host %41, read again it is A; for every n there is a text whose host still changes at the n-th reading. An @ escaped in the path turns the host into a user name, and escaped separators change the credentials. Partial: it settles for URLs text can carry with no separators in the user information and no @ in path and query (a ? in the path does no harm); exact for origin-form URLs, and the host may then have no %.

Theorems: `C114_settles_partial`, `C114_origin_iff_partial`, `C114_percent_partial`, `C114_violated_host`, `C114_violated_passes`, `C114_violated_user`, `C114_violated_path`, `C114_violated`.

### C115 A refused header list does not put the connection out of step

A HEADERS frame may be refused on its own account, because its header list is over the limit or a pseudo-header has a value that cannot be parsed, and the connection may go on (RFC 9113 10.5.1, 8.1.1). Every other frame is then judged and understood as if nothing had been refused: the verdict on a frame does not depend on the limits in force for other frames, and each header list of a conforming sender (whose blocks the decoder can read, see C66) is accepted exactly if it is within its own limit and its own pseudo-headers can be parsed, and is then the list that was meant.

Model and proof: Model/AfterError.lean: the decoder's table after a call whatever its verdict. Props/AfterError.lean: independence of the limits by induction over the frames; with C66 and the description of the accepted header lists (C94) the verdict on each frame.

Result (proved): Proved. C115_table ties the table after a call to the one Frame.parse returns; the same model gives C12_table_after and C58_table_after (the invariant also after errors).

Theorems: `C115_table`, `C115_own_limit`, `C115_understood`.

### C116 str::parse reads a method name without regard to case

s.parse::<Method>() gives one of the nine known methods exactly if s is its name but for the case of ASCII letters, and fails for every other text; in particular every known method is read back from its own text.

Model and proof: Model/UpperCase.lean: `to_uppercase` character by character, any mapping that has the stated values into ASCII. Props/UpperCase.lean: which texts have an ASCII word as their upper case, by induction over the text.

Result (partial): Violated: the long s and nine other characters have their upper case in ASCII, so `poſt` is POST and `optıonſ` is OPTIONS (C116_violated). Exact: the texts read as a method are those that spell its name with such characters (C116_iff_partial); as stated for all texts in ASCII and for all methods but POST and OPTIONS. The values of Unicode's mapping into ASCII are trusted (hypothesis UnicodeUpper); the rest of the mapping is left open.

Theorems: `C116_bytes`, `C116_iff_partial`, `C116_ascii_partial`, `C116_others_partial`, `C116_violated`, `C116_roundtrip`.

### C117 get_authority names the host and the port

For every URL with host and port, get_authority() is host:port, or the host alone if the port is the default of the URL's scheme; so scheme and authority together tell where to connect.

Model and proof: Spec/Authority.lean: when a text names host and port. Props/Authority.lean: exactly the URLs with a scheme; round trip through Url::parse; all accepted requests but CONNECT; every CONNECT request fails.

Result (partial): Violated: without a scheme the port is dropped, so the authority of every CONNECT request is the host alone, whatever the port (C117_violated_connect). Exact: it holds if and only if the URL has a scheme (C117_iff_partial), which every other accepted request has (C117_request_partial). Then the authority determines host and port and is read back as them.

Theorems: `C117_iff_partial`, `C117_injective_partial`, `C117_roundtrip_partial`, `C117_request_partial`, `C117_violated_connect`, `C117_violated`.

### C118 The methods said to have no body are those of RFC 9110

Method::is_nobody() is true of every method whose requests never have content and false of every method whose requests may; Method::res_nobody() is true exactly of the methods whose successful responses have no content.

Model and proof: Spec/MethodContent.lean: the rules of RFC 9110, section 9.3. Props/MethodContent.lean: the exact methods for which the code agrees.

Result (partial): Violated: TRACE, whose requests must have no content, is said to have a body, and OPTIONS, which may have content both ways, is said to have none (C118_violated). Exact: those are the only methods where it errs (C118_request_iff_partial, C118_response_iff_partial).

Theorems: `C118_violated`, `C118_request_iff_partial`, `C118_response_iff_partial`, `C118_discouraged`.

### C119 The character classes of Helper are those of the RFCs

Helper's classes are the ones they are named for: is_alpha, is_digit and is_hex those of RFC 5234; the characters of schemes and URIs those of RFC 3986; the characters of header names and tokens RFC 9110's tchar, as the comment of is_token says; is_status_token those of a reason phrase in RFC 9112.

Model and proof: Spec/ByteClass.lean: the classes as the RFCs list them. Props/ByteClass.lean: comparison over all bytes by the kernel; the exact difference where they disagree.

Result (partial): Violated: is_token lets all delimiters through, is_uri_token seven characters that no URI has, and is_status_token lacks the tab and obs-text of reason phrases (C119_violated). Exact: those are the only differences; the other five classes agree (C119_right).

Theorems: `C119_right`, `C119_violated`, `C119_token_iff_partial`, `C119_uri_iff_partial`, `C119_reason_iff_partial`, `C119_no_controls`.

### C120 A field that must not be indexed is sent on so

A header field received over HTTP/2 as a literal never indexed (RFC 7541 6.2.3: passwords, tokens) is sent on as a literal never indexed, and its value is put in no compression table, neither of this side nor of the next peer.

Model and proof: Spec/NeverIndexed.lean: what it means to keep the mark, over the representations of Spec/Rfc7541.lean. Props/NeverIndexed.lean: every block the encoder writes has only indexed fields and literals with incremental indexing (by induction, and a block has one reading), so no mark survives; the decoder itself stores nothing but also reports no mark.

Result (partial): Violated for every block with such a literal, whatever is sent: the encoder writes only indexed fields and literals with incremental indexing (C120_literals_are_indexed, C120_violated_always), the value is in the dynamic table once it has been sent (C120_secret_is_stored), and the decoder gives the same result with and without the marks (C120_marks_are_lost). Partial: the decoder does not store what it receives so (C120_received_partial).

Theorems: `C120_literals_are_indexed`, `C120_violated_always`, `C120_violated`, `C120_secret_is_stored`, `C120_received_partial`, `C120_marks_are_lost`.

### C121 Changing the size of the compression table does not disturb the connection

Header lists sent with one encoder are read by an RFC 7541 decoder that began with the same table size, however often HeaderIndex::set_max_table_size is called on the encoder's table in between; and a table made smaller is announced by a size update at the beginning of the next block (RFC 7541 4.2).

Model and proof: Spec/TableResize.lean: histories of sending and resizing; the peer is the decoder of Spec/Rfc7541.lean. Props/TableResize.lean: by induction over the history, this side's table is a prefix of the peer's as long as no size exceeds the first; a field that does not fit in the peer's table for the other direction.

Result (partial): Violated: for every table made larger than it was at first (32 octets or more) a field is not heard the second time (C121_violated_larger), and no size update is ever written (C121_never_announced, C121_violated_silent). Partial and exact: all histories are heard if and only if no size above the first one is set (C121_heard_partial, C121_iff_partial).

Theorems: `C121_heard_partial`, `C121_violated_larger`, `C121_violated`, `C121_iff_partial`, `C121_never_announced`, `C121_violated_silent`.

### C122 An encoder and a decoder that share a table do not disturb each other

Encoder::new_index and Decoder::new_index can be given one and the same table for a connection: whatever the peer writes in good HPACK and whatever is sent, in any order, both sides agree on every header list, as with the two independent tables of RFC 7541 2.2.

Model and proof: Spec/SharedIndex.lean: histories of sending and receiving; the code with one table; the peer with the two tables of Spec/Rfc7541.lean. Props/SharedIndex.lean: by induction over the history if the peer stores nothing; for the other direction two histories of three steps, for all fields of new names.

Result (partial): Violated, for all fields of new names that fit: this side gets its own field in place of the one that the peer meant (C122_violated_received), and the peer hears another field than the one sent (C122_violated_sent). Partial: if the peer never asks for a field to be stored, both sides agree on everything, for all histories (C122_heard_partial).

Theorems: `C122_heard_partial`, `C122_violated_received`, `C122_violated_sent`, `C122_violated`.

### C123 Encoders in several threads that share a table write blocks that can be sent in some order

Encoder::new_index takes an Arc<RwLock<HeaderIndex>>, so encoders in several threads can share the table of a connection: however their steps are interleaved nothing panics, and when all have written their blocks there is an order in which these can be sent so that an RFC 7541 decoder hears every header list.

Model and proof: Model/EncoderThreads.lean: a step is one holding of the lock: the lookup with the bytes it leads to, or the insertion; a schedule is any list of thread numbers. Spec/EncoderThreads.lean: all are done; some order of the blocks is heard. Props/EncoderThreads.lean: an invariant over the schedule (what is written so far, ordered by insertion, is read by an RFC 7541 decoder); a schedule of seven steps that tears two blocks, for all fields of new names.

Result (partial): Violated, for all fields of new names that fit: two threads of two headers each can write blocks of which no order can be read (C123_violated_torn). Partial: for all interleavings nothing panics and the headers taken one by one can be ordered (C123_linear_partial), which is enough if no block has more than one header (C123_single_partial); a thread that is not interrupted does what Encoder::encode does on its own (C123_alone_partial). Memory ordering and the RwLock itself are trusted.

Theorems: `C123_linear_partial`, `C123_single_partial`, `C123_violated_torn`, `C123_violated`, `C123_alone_partial`.

### C124 A header block is not longer than the header list

The block that Encoder::encode writes for a header list is no longer than the size of that list as RFC 9113 6.5.2 counts it (name, value and 32 for each field), so that a list kept within a limit needs no more than that many bytes on the wire.

Model and proof: Spec/BlockSize.lean: octets of an integer (RFC 7541 5.1), bits of a text in the Huffman code, with headerListSize of Spec/Frame.lean. Props/BlockSize.lean: exact length of integers and strings by induction, a bound for each kind of representation, sums over the list by induction.

Result (partial): Violated: strings are always written in Huffman code, and bytes outside ASCII take 19 bits or more, so every such value that is long enough makes the block longer than the list (C124_violated_value). Partial: exact length of every string (C124_string_partial), at most the size of the list if code words take eight bits or less on the whole (C124_text_partial), at most four times that size for every list (C124_bound_partial).

Theorems: `C124_string_partial`, `C124_bound_partial`, `C124_text_partial`, `C124_violated_value`, `C124_violated`.

### C125 A field that was just sent is sent again as an index

When a field that fits in the table of the encoder is sent twice in a row, the second time it is written as an index and the table is not changed: repeated fields cost a byte or two, which is what the table is for.

Model and proof: Spec/Repeats.lean: fields of the static table, blocks that are one index in the grammar of Spec/Rfc7541.lean. Props/Repeats.lean: what the lookup gives in each case, uniqueness of the reading of a block, induction over the number of times.

Result (partial): Violated for every field whose name is in the static table with other values (cookie, user-agent, :authority and so on): it is written as a literal and stored again each time (C125_violated_copies, for any number of times). Partial: exactly the other fields are sent again as an index (C125_iff_partial).

Theorems: `C125_iff_partial`, `C125_violated_copies`, `C125_violated`.

### C126 A value pushed to a field is one more value of the field

HeaderMap::push adds a value to a field that is there already, so that the peer, reading the field as RFC 9110 5.3 reads several lines or a list, finds the elements it had before and those of each value pushed.

Model and proof: Spec/PushedValue.lean: lists of RFC 9110 from Spec/Options.lean, parts between semicolons. Props/PushedValue.lean: the value after any number of pushes by induction, a count of semicolons that splitting and trimming do not change.

Result (partial): Violated always: values are joined with a semicolon, so for every field and value the elements read are not those sent (C126_violated_always), and values without commas become one element (C126_violated_one). Partial: a first push (C126_new_partial) and fields with parts between semicolons, as Cookie, are right for any number of values (C126_parts_partial). Quoted strings are not looked at in the specification of lists.

Theorems: `C126_violated_always`, `C126_violated_one`, `C126_violated`, `C126_new_partial`, `C126_parts_partial`.

### C127 Unsafe code is given what it requires

The bytes that Helper makes a str without a check (from_utf8_unchecked) are UTF-8, whatever head, URL or chunk is parsed; and every status code that can be made lies in the range that as_str looks up without a check in release builds. Otherwise safe calls lead to undefined behaviour.

Model and proof: Model/UncheckedText.lean: the bytes given to the conversion, following the parsers step by step. Props/UncheckedText.lean: cutting UTF-8 at ASCII characters, invariant over the lines of a head, RFC 3629 from Spec/Utf8.lean. Props/UncheckedExact.lean: the converse, by following what each reader consumes.

Result (partial): Violated by every response and request of which a header value is not UTF-8 (C127_violated_response, C127_violated_request): the class of header values has all bytes but CR. Partial: a head that is UTF-8 is safe (C127_utf8_partial), an accepted head is safe only if it is (C127_response_iff_partial, C127_request_iff_partial), schemes and chunk sizes are always safe (C127_tokens_partial), and so is the lookup of status codes (C127_status_partial).

Theorems: `C127_response_iff_partial`, `C127_request_iff_partial`, `C127_utf8_partial`, `C127_tokens_partial`, `C127_violated_response`, `C127_violated_request`, `C127_violated`, `C127_status_partial`.

### C128 Text made of bytes

Where bytes that may not be UTF-8 become text (url_decode, header values as String or displayed, header names from bytes, get_host, WebSocket text and close reasons), the text is the one of the Unicode standard: code points as they are and one U+FFFD for each maximal ill-formed subpart. Strings that stand for different bytes are decoded to different text.

Model and proof: Spec/Lossy.lean: the text of bytes by maximal subparts, from the code points of Spec/Utf8.lean and without the model of the standard library. Proofs/Lossy.lean: the model makes this text and it is the only one. Props/Lossy.lean: each function of the API, and exactly which bytes are told apart.

Result (partial): The text is the specified one everywhere (C128_url_decode, C128_header_value, C128_header_name, C128_host, C128_message). The second sentence is violated by %FF and %FE (C128_violated); it holds for given bytes exactly if these are UTF-8 without U+FFFD (C128_apart_partial, C128_url_apart_partial).

Theorems: `C128_one_text`, `C128_text_utf8`, `C128_check`, `C128_url_decode`, `C128_header_value`, `C128_header_name`, `C128_host`, `C128_message`, `C128_violated`, `C128_apart_partial`, `C128_url_apart_partial`.

### C129 Parsing into a used object leaves nothing of the message before

After parse_buffer into a request or response that was used before, everything that can be read from it (head, extensions, system values of the headers, body) is what it would be had the same bytes been parsed into a new object.

Model and proof: Model/FullParse.lean: requests and responses with all their fields. Props/FullParse.lean: what is left after a parse, for every input, and exactly when it is that of a new object.

Result (partial): Violated by every parse into an object with extensions, system values or a body (C129_violated_always, C129_violated): parse_buffer resets the head only. Exactly when the outcome is that of a new object: C129_request_iff_partial, C129_response_iff_partial. For the head see C60.

Theorems: `C129_violated_always`, `C129_request_iff_partial`, `C129_response_iff_partial`, `C129_read_only_partial`, `C129_violated`.

### C130 Comparing header maps

Two header maps are equal (==) exactly if they hold the same values under the same names and the same system values, whatever was done to them before; being equal is reflexive, symmetric and transitive; a cleared map is equal to a new one.

Model and proof: Model/MapEq.lean: the derived comparison, with the system values. Props/MapEq.lean: compared with the abstract map of C35 by induction over the operations.

Result (partial): Violated by the order of insertion for any two names (C130_violated_order), by ambiguous names, for which == is not transitive (C130_violated_names), and by clear, which keeps system values (C130_clear_iff_partial). Exactly what == means for unambiguous names: C130_whole_iff_partial, C130_iff_partial, C130_lookup_partial. Reflexive and symmetric for all: C130_symmetric_partial.

Theorems: `C130_violated_order`, `C130_violated_names`, `C130_violated`, `C130_symmetric_partial`, `C130_iff_partial`, `C130_lookup_partial`, `C130_clear_iff_partial`, `C130_system`, `C130_whole_iff_partial`.

### C131 Headers changed while iterating

Whatever is done to a header map, changes of names and values through iter_mut included, a name that is removed is not there any more, and a map whose headers can be written on lines of their own is read back as it was.

Model and proof: Model/MapIter.lean: going through the map with any change. Props/MapIter.lean: which maps can be reached, and exactly when removing and writing do as said; induction over the map and over histories.

Result (partial): Violated: any list of headers can be made, with a name several times (C131_any), and then remove leaves one (C131_violated_remove). Exactly when a removed name is gone: C131_remove_iff_partial; exactly when a clean map is read back: C131_reread_iff_partial; otherwise the writer sees the first value and the reader the last: C131_first_last_partial. Changes of values only are right: C131_values, C131_names_kept_partial.

Theorems: `C131_any`, `C131_remove_iff_partial`, `C131_violated_remove`, `C131_violated`, `C131_reread_iff_partial`, `C131_first_last_partial`, `C131_values`, `C131_names_kept_partial`.

### C132 The work of reading header lines

The number of header names that are compared while the header lines of a message are read is at most in proportion to the number of bytes read.

Model and proof: Model/HeaderCost.lean: the loops of insert and parse_header with a count. Props/HeaderCost.lean: the exact count for lines with different names, by induction, and names of two letters for which it outgrows every multiple of the length.

Result (partial): Violated for every factor by lines that are all accepted (C132_violated_always): k lines with different names need k(k-1)/2 comparisons (C132_exact_partial). For any bytes the square of their number is not exceeded (C132_square_partial), and with names among d given ones d comparisons for each line are not exceeded (C132_few_names_partial). What one insert compares: C132_insert_exact. Only comparisons of names are counted, not the time of each.

Theorems: `C132_exact_partial`, `C132_violated_always`, `C132_violated`, `C132_square_partial`, `C132_insert_exact`, `C132_few_names_partial`.

### C133 Only WebSocket frames and messages that may be sent are written

DataFrameable::write_to writes only what RFC 6455 lets an endpoint send: frames without reserved bits and with a known opcode, control frames short and in one piece, text in UTF-8, close messages with a code that may be sent and a reason in UTF-8. Everything else is refused.

Model and proof: Spec/WsSender.lean: the payloads that each type of message may have. Props/WsSender.lean: exactly what is written, and exactly which of it may be sent, from the bytes of RFC 6455 5.2.

Result (partial): Violated: control frames said not to be the last are written, and the reader of the same crate refuses them (C133_violated_control); reserved bits and unknown opcodes are written (C133_violated_reserved), and so are close codes that must not be sent (C133_violated_code). The status code is written before the data of messages of every type (C133_violated_status). Partial, exact: what is written and refused (C133_written_iff_partial, C133_message_written_partial), and which of it may be sent (C133_frame_iff_partial, C133_message_iff_partial, C133_owned_iff_partial).

Theorems: `C133_written_iff_partial`, `C133_frame_iff_partial`, `C133_violated_control`, `C133_violated_reserved`, `C133_message_written_partial`, `C133_message_iff_partial`, `C133_built_partial`, `C133_violated_code`, `C133_violated_status`, `C133_violated`, `C133_owned_iff_partial`.

### C134 A receiver that follows RFC 9112 hears what was written

The head that is written for a response or a request is, whatever follows it, a head of RFC 9112 with the version, the status or method and path, and exactly the fields of that message, so that a receiver that follows the RFC and not this crate hears the same message.

Model and proof: Spec/WrittenHead.lean on the grammar of Spec/Grammar.lean (RFC 9112 alone). Props/WrittenHead.lean: exact conditions, and by induction over the field lines that there is no other reading.

Result (partial): Violated: values with NUL, a lone LF and the like are written and read back by the crate, but no receiver that follows RFC 9112 can read the head (C134_violated_octets); a value with CR LF is heard as two fields (C134_violated_injection), a path with a space ends the request line (C134_violated_path), and messages of HTTP/2 and HTTP/3 get a start line of no HTTP/1 version (C134_violated_version). Exact: C134_response_iff_partial, C134_request_iff_partial. Nothing else is heard if names are tokens and values have no CR: C134_response_only_partial, C134_request_only_partial.

Theorems: `C134_response_iff_partial`, `C134_request_iff_partial`, `C134_response_only_partial`, `C134_request_only_partial`, `C134_violated_octets`, `C134_violated_version`, `C134_violated_injection`, `C134_violated`, `C134_violated_path`.

### C135 A body written in pieces is heard whole

A body of which each piece is written with encode_chunk_data, and the end with an empty chunk, is for a receiver that follows RFC 9112 the pieces in order and nothing else; the next message begins after it, whatever follows.

Model and proof: Spec/WrittenChunks.lean: chunked-body of RFC 9112 7.1 as an inductive relation. Props/WrittenChunks.lean: existence and uniqueness of the reading by induction over the pieces.

Result (partial): Violated by each empty piece: it is written as the last chunk, so the body ends there and what was written after it is taken for the next message (C135_violated_always, C135_heard_partial, exact). Holds exactly if no piece is empty (C135_iff_partial, C135_whole_partial).

Theorems: `C135_heard_partial`, `C135_whole_partial`, `C135_iff_partial`, `C135_violated_always`, `C135_violated`.

### C136 A conforming server hears the requests that were sent

Requests that are written with http1_data one after the other, their bodies whole or in pieces with encode_chunk_data, are for a server that follows RFC 9112 exactly these requests with these bodies: there is no other reading of the bytes.

Model and proof: Spec/RequestStream.lean: a stream of requests by RFC 9112 as an inductive relation over Spec/Grammar, Spec/BodyKind and Spec/WrittenChunks. Props/RequestStream.lean: existence and uniqueness of the reading by induction over the requests.

Result (partial): Violated: http1_data writes any body after any head, so the body of a request whose fields announce none is heard as a request of its own, and only so (C136_violated_smuggled). Holds, with no other reading, for requests that RFC 9112 allows and whose fields announce the body (C136_heard_partial); for one request that is exact (C136_one_iff_partial). Missing for lists: that no list with a wrongly announced body is heard as meant.

Theorems: `C136_heard_partial`, `C136_one_iff_partial`, `C136_violated_smuggled`, `C136_violated`.

### C137 A conforming client hears the responses that were sent

Responses that are written with serialize one after the other, their bodies whole or in pieces with encode_chunk_data, are for a client that follows RFC 9112 exactly these responses with these bodies: there is no other reading of the bytes.

Model and proof: Spec/ResponseStream.lean: a stream of responses by RFC 9112 as an inductive relation over Spec/Grammar, Spec/ResponseBody and Spec/WrittenChunks. Props/ResponseStream.lean: existence and uniqueness of the reading by induction over the responses.

Result (partial): Violated: a body is also written after a status that never has one, and is heard as the next response (C137_violated_bodyless); without Content-Length and Transfer-Encoding everything written later is heard as part of the body (C137_violated_unframed). Holds, with no other reading, for responses that RFC 9112 allows and whose status and fields announce the body (C137_heard_partial); for one response that is exact (C137_one_iff_partial). Missing for lists: that no other list is heard as meant.

Theorems: `C137_heard_partial`, `C137_one_iff_partial`, `C137_violated_bodyless`, `C137_violated_unframed`, `C137_violated`.

### C138 A conforming WebSocket peer hears the messages that were sent

Messages that are written with write_to one after the other, masked as the peer expects, are for a peer that follows RFC 6455 exactly these messages: there is no other reading of the bytes, also not as fragments.

Model and proof: Spec/WsStream.lean: a stream of messages by RFC 6455 5.4 as an inductive relation with the fragments held. Props/WsStream.lean: exact, by induction over the messages.

Result (partial): Violated: messages that must not be sent (C133: codes like 1005, reasons and text that are not UTF-8) are written, and then the peer can make nothing of all the bytes (C138_violated_payload). Exact: something is heard if and only if all messages are masked as expected and may be sent, and then these and no others (C138_heard_iff_partial).

Theorems: `C138_heard_iff_partial`, `C138_violated_payload`, `C138_violated`.

### C139 This crate and a conforming server agree on the requests on a connection

Whatever bytes a server that follows RFC 9112 hears as a sequence of requests, a server that reads them with this crate, taking each body as is_chunked and get_body_len say, hears as the same requests with the same bodies.

Model and proof: Spec/Agreement.lean on Spec/RequestStream (RFC 9112) and Spec/Conversation (a caller of this crate). Props/Agreement.lean: induction over the requests from C73, C81 and C96.

Result (partial): Violated: with a field `#ontent-Length` before Content-Length the body that a conforming server hears is the next request for this crate, whatever it is (C139_violated_smuggled). Partial: both hear the same if every request has a registered method, a readable target, spaces only before values, names that are not confused, and a body that is plain (C139_agree_partial). Missing: which other streams are also heard alike (method for method, the exact conditions on one message are in C73, C81 and C96).

Theorems: `C139_agree_partial`, `C139_violated_smuggled`, `C139_violated`.

### C140 This crate and a conforming client agree on the responses on a connection

Whatever bytes a client that follows RFC 9112 hears as a sequence of responses (to requests other than HEAD and CONNECT), a client that reads them with this crate, taking each body as is_chunked and get_body_len say, hears as the same responses with the same bodies.

Model and proof: Spec/AnswerAgreement.lean on Spec/ResponseStream (RFC 9112) and Spec/Conversation (a caller of this crate). Props/AnswerAgreement.lean: induction over the responses from C73, C81 and C105.

Result (partial): Violated for all responses whose body ends with the connection: the body is the next response for this crate, whatever it is (C140_violated_split). Partial: both hear the same if every response has a plain reason, spaces only before values, names that are not confused, and a body that is plain (C140_agree_partial). Missing: which other streams are also heard alike (the exact conditions on one message are in C73, C81 and C105).

Theorems: `C140_agree_partial`, `C140_violated_split`, `C140_violated`.

### C141 What a conforming WebSocket peer sends is heard as the same messages

Whatever bytes a peer that follows RFC 6455 sends as a sequence of messages, whole or in fragments, with control messages between the fragments, a receiver that reads frames with this crate and puts the frames of a message together with Message from frames takes to the last byte, gets the same messages in the same order, holds no fragment, and gets nothing else.

Model and proof: Spec/WsStream.lean: streams by RFC 6455 5.4 (as for C138); Spec/WsConnection.lean: the receiver (as for C82). Props/WsAgreement.lean: induction over the stream with the frames held as invariant, then uniqueness.

Result (proved): Proved: every conforming stream is taken to the end as its messages (C141_conforming_peer_heard), and a receiver that took all the bytes has these and no others (C141_nothing_else_heard). The loop that collects frames is the receiver of Spec/WsConnection.lean, since the crate leaves this to its user. That streams which do not conform are taken too is C83 and C84.

Theorems: `C141_conforming_peer_heard`, `C141_nothing_else_heard`.

### C142 Only what a conforming WebSocket peer would send is heard

Whatever bytes a receiver that reads frames with this crate takes to the last byte as a sequence of messages are, by RFC 6455, the same messages for an endpoint whose peer has to mask (or must not).

Model and proof: Spec/WsStream.lean and Spec/WsConnection.lean as for C141. Props/WsAgreement.lean: the exact condition, by induction over the frames read with the fragments held as invariant, both ways.

Result (partial): Violated: messages with the mask of the wrong direction are read (C142_violated_mask), as are close messages with codes that must not be sent (C142_violated_code). Exact: bytes are conforming messages if and only if each frame by itself may be sent, the receiver reads them to the end as these messages, and no close code is forbidden (C142_heard_iff_partial). So the order of fragments is always enforced. The receiver is the one of C82 and C141.

Theorems: `C142_heard_iff_partial`, `C142_violated_mask`, `C142_violated`, `C142_violated_code`.

## Axioms per theorem

As printed by `#print axioms` (tools/axioms.py). No other axioms occur.

* none: `C50_empty`, `C100_into`, `C103_u64_short`, `C103_streamId_short`, `C110_violated_errors`
* Classical.choice, Quot.sound, propext: `C01_encode_meets_rfc`, `C01_roundtrip`, `C01_too_large_rejected`, `C02_decode_exact`, `C02_decode_local`, `C02_truncated_is_error`, `C03_roundtrip`, `C03_encode_meets_rfc`, `C04_accepts_exactly_partial`, `C04_canonical_partial`, `C05_encode_lower`, `C08_static_violated`, `C08_static_partial`, `C08_dynamic`, `C08_dynamic_history`, `C09_violated_by_name_confusion`, `C09_connection_roundtrip_partial`, `C09_plain_names_partial`, `C09_violated_by_large_index`, `C09_reachable_partial`, `C09_names_iff_partial`, `C09_violated_unreachable`, `C09_singles_iff_partial`, `C09_violated_hang`, `C10_violated`, `C10_size_update_never_ends`, `C10_terminates_iff_partial`, `C10_endless_iff_partial`, `C11_compositional`, `C11_blocks`, `C12_table_after`, `C12_step_safe`, `C12_run_safe`, `C13_roundtrip`, `C15_ping`, `C15_goAway`, `C15_windowUpdate`, `C15_reset`, `C16_violated`, `C16_never_readable`, `C16_payload_partial`, `C17_roundtrip`, `C18_parse_iff`, `C18_stream_and_ack`, `C19_part_reads_back`, `C19_reads_back`, `C20_padding_kept_partial`, `C20_violated`, `C20_pad_too_long`, `C20_boundary_violated`, `C20_read_partial`, `C20_iff_partial`, `C21_violated_by_end_stream`, `C21_violated_by_size`, `C21_block_intact_partial`, `C21_iff_partial`, `C21_violated_always`, `C21_size_partial`, `C22_violated`, `C22_block_roundtrip_partial`, `C22_connection_partial`, `C22_read_partial`, `C22_iff_partial`, `C23_limit`, `C24_distinct`, `C25_one`, `C25_stream`, `C26_write_wire`, `C26_roundtrip`, `C27_read_iff`, `C27_rewrite`, `C28_mask_rfc`, `C28_involution`, `C28_length`, `C28_piecewise`, `C29_roundtrip`, `C29_truncated`, `C29_read_exact`, `C30_bytes_written_partial`, `C31_limit`, `C31_refused_early`, `C32_reassemble`, `C32_accepts_iff`, `C33_close_bytes`, `C33_roundtrip`, `C33_stream`, `C35_getters_partial`, `C35_violated`, `C35_map_partial`, `C35_names_iff_partial`, `C35_lower_case_partial`, `C35_letters_partial`, `C35_no_duplicates`, `C36_violated`, `C36_violated_transitivity`, `C36_violated_hash`, `C36_complete_partial`, `C36_exact`, `C36_sound_partial`, `C36_iff_partial`, `C36_on_classes_partial`, `C37_violated_injection`, `C37_violated`, `C37_roundtrip_partial`, `C37_roundtrip_iff`, `C37_accepts_clean`, `C38_response`, `C38_request`, `C39_response`, `C39_request`, `C40_violated`, `C40_roundtrip_iff_partial`, `C40_no_injection_partial`, `C40_serialisable`, `C40_head_and_body`, `C41_violated`, `C41_violated_encoding`, `C41_violated_injection`, `C41_roundtrip_iff_partial`, `C41_exact_partial`, `C41_violated_connect`, `C42_wire`, `C42_roundtrip`, `C42_sequence`, `C42_prefix`, `C42_violated_panic`, `C42_panic_iff_partial`, `C43_violated_empty`, `C43_violated_panic`, `C43_violated_sign`, `C43_violated_min`, `C43_usize_partial`, `C43_usize_panic_partial`, `C43_isize_partial`, `C43_isize_reads_partial`, `C43_static`, `C43_roundtrip_usize`, `C43_roundtrip_isize_partial`, `C43_body_len_partial`, `C43_violated_body_len`, `C44_roundtrip`, `C44_classes`, `C45_version_from`, `C45_version_agree`, `C45_method`, `C45_method_text`, `C45_version`, `C45_version_text`, `C45_parse`, `C46_roundtrip`, `C46_stands_for`, `C46_safe`, `C46_injective`, `C47_iff_partial`, `C47_violated`, `C47_accepts`, `C47_rejects`, `C48_violated`, `C48_violated_host`, `C48_roundtrip_partial`, `C48_roundtrip_iff_partial`, `C49_violated`, `C49_violated_port`, `C49_port`, `C49_origin`, `C49_domain_partial`, `C49_parts_partial`, `C49_absolute_partial`, `C49_absolute_iff_partial`, `C49_language_partial`, `C49_domain_iff_partial`, `C50_fields`, `C50_idempotent`, `C50_into_empty`, `C51_iff_partial`, `C51_violated`, `C51_roundtrip_partial`, `C51_text`, `C51_length`, `C51_known`, `C51_parse_length`, `C53_contains`, `C53_detection`, `C53_upgrade`, `C54_headers`, `C54_method`, `C54_version`, `C54_status`, `C54_request`, `C54_response`, `C54_response_body`, `C54_chunk`, `C54_request_bytes`, `C54_response_bytes`, `C54_response_head_bytes`, `C54_frame`, `C55_response`, `C55_violated_request`, `C55_request_partial`, `C56_violated`, `C56_authority_partial`, `C56_any_authority_partial`, `C56_violated_always`, `C56_iff_partial`, `C57_any_text`, `C57_violated`, `C57_never`, `C58_table_after`, `C58_connection_partial`, `C58_violated`, `C58_panic_iff_partial`, `C58_table_kept`, `C59_url`, `C59_request`, `C59_response`, `C60_request`, `C60_response`, `C61_builder_partial`, `C61_roundtrip`, `C61_refused`, `C61_text`, `C61_value`, `C61_parse_iff`, `C61_no_panic`, `C61_violated_upgrade`, `C61_upgrade_partial`, `C62_violated_host`, `C62_violated_scheme`, `C62_violated_absolute`, `C62_violated_ipv6`, `C62_origin_partial`, `C62_accepts_partial`, `C62_absolute_partial`, `C62_connect`, `C63_violated_host`, `C63_no_authority`, `C63_request`, `C63_url_partial`, `C63_response`, `C63_response_parts`, `C63_url_iff_partial`, `C63_violated_joined`, `C64_error`, `C64_built`, `C64_violated_lookup`, `C64_lookup_partial`, `C64_response_ok`, `C64_response_built`, `C64_response_lookup_partial`, `C65_builder`, `C65_violated_set_url`, `C65_set_url_partial`, `C65_get_host`, `C65_set_url_iff_partial`, `C66_iff_partial`, `C66_violated_static`, `C66_violated_size_update`, `C66_violated_index`, `C66_violated_integer`, `C66_decodes_partial`, `C67_violated`, `C67_one_reading`, `C67_connection_partial`, `C67_names_iff_partial`, `C68_iff_partial`, `C68_refused_iff_partial`, `C68_violated_static`, `C68_violated_index`, `C68_violated_eos`, `C68_sound_partial`, `C69_request_final`, `C69_response_final`, `C69_request`, `C69_response`, `C70_violated_target`, `C70_violated_escape`, `C70_violated_tab`, `C70_violated_response_tab`, `C70_request_violated`, `C70_response_violated`, `C70_response_partial`, `C70_request_partial`, `C70_response_iff_partial`, `C70_url_iff_partial`, `C70_request_iff_partial`, `C71_responses`, `C71_responses_cut`, `C71_requests_partial`, `C71_requests_iff_partial`, `C71_violated_requests`, `C72_violated`, `C72_violated_case`, `C72_violated_substring`, `C72_spelled_partial`, `C72_absent`, `C72_elements_iff_partial`, `C72_chunked_iff_partial`, `C72_one_iff_partial`, `C73_response_partial`, `C73_request_partial`, `C73_fields_partial`, `C73_last_partial`, `C73_violated_reason`, `C73_violated_method`, `C73_violated_response`, `C73_violated_blanks`, `C73_violated_names`, `C73_violated_request`, `C74_response_iff_partial`, `C74_request_iff_partial`, `C74_violated_response`, `C74_violated_request`, `C74_violated_smuggle`, `C74_violated_colon`, `C74_violated_line`, `C75_taken_iff_partial`, `C75_checked_partial`, `C75_violated_unknown_flag`, `C75_violated_padded_ping`, `C75_violated_streams`, `C75_violated`, `C75_unknown_kind_partial`, `C76_stream_partial`, `C76_flags_partial`, `C76_questions`, `C76_violated_priority`, `C76_violated_ping`, `C76_violated`, `C77_read_partial`, `C77_ids_partial`, `C77_violated_request`, `C77_violated`, `C77_violated_step`, `C77_violated_short`, `C78_received_partial`, `C78_exact_partial`, `C78_hostless_partial`, `C78_violated_query`, `C78_violated_port`, `C78_violated_path`, `C78_violated`, `C79_setters`, `C79_switches`, `C79_read_partial`, `C79_violated`, `C80_refines`, `C80_same_partial`, `C80_equal_names`, `C80_violated_length`, `C80_violated`, `C81_taken_iff_partial`, `C81_incomplete_iff_partial`, `C81_conforming_partial`, `C81_body_partial`, `C81_violated_extension`, `C81_violated_forever`, `C81_violated_end`, `C81_violated_space`, `C81_violated_trailer`, `C81_violated`, `C82_connection`, `C83_taken_iff_partial`, `C83_conforming_partial`, `C83_sound_partial`, `C83_violated_mask`, `C83_violated_reserved`, `C84_accepts_iff_partial`, `C84_conforming_partial`, `C84_violated_fin`, `C84_violated_control`, `C84_violated_code`, `C84_violated`, `C85_waits_partial`, `C85_again_partial`, `C85_violated_always`, `C85_violated`, `C87_built`, `C87_error`, `C87_survives_partial`, `C87_violated_host`, `C87_violated_user`, `C87_violated`, `C87_survives_iff_partial`, `C88_request_iff_partial`, `C88_response_iff_partial`, `C88_violated`, `C88_request_text`, `C88_response_text`, `C88_response_reads_back`, `C89_same_iff_partial`, `C89_violated_close`, `C89_violated`, `C89_constructors`, `C89_received_partial`, `C90_iff_partial`, `C90_one_hearing`, `C90_heard_partial`, `C90_connection_partial`, `C90_violated_end`, `C90_violated`, `C91_iff_partial`, `C91_violated_order`, `C91_violated`, `C92_heard_partial`, `C92_violated_request`, `C92_violated`, `C93_iff_partial`, `C93_plain_is_heard`, `C93_reported_partial`, `C93_understood_partial`, `C93_violated_repeated`, `C93_violated_continuation`, `C93_violated_method`, `C93_violated`, `C94_accepted_iff_partial`, `C94_meaning_partial`, `C94_violated_anything`, `C94_violated_pseudo`, `C94_violated`, `C95_iff_partial`, `C95_wellformed_partial`, `C95_violated_injection`, `C95_violated`, `C96_iff_partial`, `C96_last_partial`, `C96_length_partial`, `C96_chunked_partial`, `C96_violated_differing`, `C96_violated_malformed`, `C96_violated_negative`, `C96_violated_name`, `C96_violated_hidden`, `C96_violated_smuggle`, `C96_violated`, `C97_method_partial`, `C97_violated_reversed`, `C97_violated_refused`, `C97_violated_content`, `C97_violated`, `C98_control_partial`, `C98_data_partial`, `C98_violated_padded`, `C98_violated_priority`, `C98_headers_partial`, `C98_trailers_partial`, `C98_violated_head`, `C98_violated_promise`, `C98_violated`, `C99_bound`, `C99_connection`, `C99_violated_limit`, `C99_violated`, `C100_binary_partial`, `C100_violated_error`, `C101_absent`, `C101_assign`, `C102_read_iff_partial`, `C102_violated`, `C102_pong`, `C102_ping`, `C102_settings_ack`, `C103_u64`, `C103_u64_back`, `C103_streamId`, `C103_streamId_iff`, `C103_increment_partial`, `C103_violated_increment`, `C103_errorCode_iff_partial`, `C103_violated_numbers`, `C103_violated_frame`, `C103_violated_serialize`, `C104_http1_partial`, `C104_violated_http2`, `C104_violated_ws`, `C104_violated`, `C105_iff_partial`, `C105_last_partial`, `C105_length_partial`, `C105_chunked_partial`, `C105_violated_untilClose`, `C105_violated_noContent`, `C105_violated_coding`, `C105_violated`, `C106_origin_iff_partial`, `C106_unique_partial`, `C106_violated_path`, `C106_violated_port`, `C106_violated_escape`, `C106_violated_unique`, `C106_violated`, `C106_violated_second`, `C106_absolute_iff_partial`, `C106_read_iff_partial`, `C107_violated_built`, `C107_built_partial`, `C107_violated_ready`, `C107_length_partial`, `C107_ready_iff_partial`, `C107_violated`, `C108_violated_lost`, `C108_length_partial`, `C108_length_iff_partial`, `C108_violated_short`, `C108_violated_chunked`, `C108_violated_lost_response`, `C108_response_iff_partial`, `C108_violated`, `C108_response_violated`, `C109_iff_partial`, `C109_violated_split`, `C109_printable_partial`, `C109_response`, `C109_violated`, `C110_names`, `C110_debug`, `C110_display_iff_partial`, `C110_violated_display`, `C111_violated_equal`, `C111_violated_order`, `C112_request_word`, `C112_response_word`, `C112_request_not_response`, `C112_response_not_request`, `C112_magic`, `C112_preface`, `C112_preface_start`, `C112_accepted`, `C113_url`, `C113_response`, `C113_request`, `C113_sharp`, `C113_chunk`, `C113_frame`, `C114_settles_partial`, `C114_origin_iff_partial`, `C114_percent_partial`, `C114_violated_host`, `C114_violated_passes`, `C114_violated_user`, `C114_violated_path`, `C114_violated`, `C115_table`, `C115_own_limit`, `C115_understood`, `C116_bytes`, `C116_iff_partial`, `C116_ascii_partial`, `C116_others_partial`, `C116_violated`, `C116_roundtrip`, `C117_iff_partial`, `C117_injective_partial`, `C117_roundtrip_partial`, `C117_request_partial`, `C117_violated_connect`, `C117_violated`, `C119_right`, `C119_violated`, `C119_token_iff_partial`, `C119_uri_iff_partial`, `C120_literals_are_indexed`, `C120_violated_always`, `C120_violated`, `C120_secret_is_stored`, `C120_received_partial`, `C120_marks_are_lost`, `C121_heard_partial`, `C121_violated_larger`, `C121_violated`, `C121_iff_partial`, `C121_never_announced`, `C121_violated_silent`, `C122_heard_partial`, `C122_violated_received`, `C122_violated_sent`, `C122_violated`, `C123_linear_partial`, `C123_single_partial`, `C123_violated_torn`, `C123_violated`, `C123_alone_partial`, `C124_string_partial`, `C124_bound_partial`, `C124_text_partial`, `C124_violated_value`, `C124_violated`, `C125_iff_partial`, `C125_violated_copies`, `C125_violated`, `C126_violated`, `C126_new_partial`, `C127_response_iff_partial`, `C127_request_iff_partial`, `C127_utf8_partial`, `C127_tokens_partial`, `C127_violated_response`, `C127_violated_request`, `C127_violated`, `C127_status_partial`, `C128_one_text`, `C128_text_utf8`, `C128_check`, `C128_url_decode`, `C128_header_value`, `C128_header_name`, `C128_host`, `C128_message`, `C128_violated`, `C128_apart_partial`, `C128_url_apart_partial`, `C129_violated_always`, `C129_request_iff_partial`, `C129_response_iff_partial`, `C129_read_only_partial`, `C129_violated`, `C130_violated_order`, `C130_violated_names`, `C130_violated`, `C130_symmetric_partial`, `C130_iff_partial`, `C130_lookup_partial`, `C130_clear_iff_partial`, `C130_system`, `C130_whole_iff_partial`, `C131_any`, `C131_violated_remove`, `C131_violated`, `C131_reread_iff_partial`, `C131_first_last_partial`, `C131_values`, `C131_names_kept_partial`, `C132_exact_partial`, `C132_violated_always`, `C132_violated`, `C132_square_partial`, `C132_insert_exact`, `C132_few_names_partial`, `C133_written_iff_partial`, `C133_frame_iff_partial`, `C133_violated_control`, `C133_violated_reserved`, `C133_message_written_partial`, `C133_message_iff_partial`, `C133_built_partial`, `C133_violated_code`, `C133_violated_status`, `C133_violated`, `C133_owned_iff_partial`, `C134_response_iff_partial`, `C134_request_iff_partial`, `C134_response_only_partial`, `C134_request_only_partial`, `C134_violated_octets`, `C134_violated_version`, `C134_violated_injection`, `C134_violated`, `C134_violated_path`, `C135_heard_partial`, `C135_whole_partial`, `C135_iff_partial`, `C135_violated_always`, `C135_violated`, `C136_heard_partial`, `C136_one_iff_partial`, `C136_violated_smuggled`, `C136_violated`, `C137_heard_partial`, `C137_one_iff_partial`, `C137_violated_bodyless`, `C137_violated_unframed`, `C137_violated`, `C138_heard_iff_partial`, `C138_violated_payload`, `C138_violated`, `C139_agree_partial`, `C139_violated_smuggled`, `C139_violated`, `C140_agree_partial`, `C140_violated_split`, `C140_violated`, `C141_conforming_peer_heard`, `C141_nothing_else_heard`, `C142_heard_iff_partial`, `C142_violated_mask`, `C142_violated`, `C142_violated_code`
* Quot.sound, propext: `C04_violated`, `C06_size_invariant`, `C07_insert_evicts`, `C07_limit_evicts`, `C14_short`, `C14_exact`, `C14_ranges`, `C14_flags_violated`, `C16_parse_exact`, `C18_no_panic`, `C19_split`, `C19_zero_limit_never_ends`, `C21_single_frame_partial`, `C21_no_end_stream_partial`, `C24_ids`, `C26_writer_accepts`, `C27_no_panic`, `C30_violated`, `C30_returns_zero`, `C30_sizes`, `C33_long_control_refused`, `C34_code_roundtrip`, `C34_name_roundtrip`, `C34_registry`, `C36_hash`, `C44_from_u16`, `C44_from_bytes`, `C47_result_partial`, `C47_valid_partial`, `C52_get`, `C52_insert_returns`, `C52_remove_returns`, `C52_len`, `C52_is_empty`, `C76_flag_bits`, `C83_violated`, `C86_converts_partial`, `C86_exact_partial`, `C86_panics`, `C101_present`, `C103_u24`, `C111_total`, `C111_order_partial`, `C126_violated_always`, `C126_violated_one`, `C131_remove_iff_partial`
* propext: `C03_table_canonical`, `C13_encode_wire`, `C14_kinds`, `C33_owned_roundtrip`, `C64_from_request`, `C78_scheme_partial`, `C80_equal_values`, `C86_violated`, `C89_pong`, `C89_questions`, `C100_request_iff_partial`, `C100_response_iff_partial`, `C100_violated_extension`, `C100_violated_clone`, `C100_parts_iff_partial`, `C100_violated_parts`, `C110_errors_iff_partial`, `C111_violated_eq`, `C118_violated`, `C118_request_iff_partial`, `C118_response_iff_partial`, `C118_discouraged`, `C119_reason_iff_partial`, `C119_no_controls`, `C126_parts_partial`
