{"id": "C01", "title": "Protobuf varint round trip, canonical length", "statement": "Encoding any unsigned 64-bit integer as a varint and decoding the bytes gives back the same integer. The encoding is the little-endian base-128 form: it has at least 1 and at most 10 bytes, every byte but the last has its top bit set, the last has it clear, and no shorter byte string decodes to the same integer.", "quantifier": "every integer below 2^64", "why_tests_cant": "2^64 inputs; the boundary cases (multiples of 2^7k, the tenth byte) are exactly the ones a sample misses.", "anchors": ["src/formats/protobuf/varint.rs: encode_u64, decode_u64"]}
{"id": "C02", "title": "Varint slice decoder accepts exactly the well-formed varints", "statement": "Decoding a byte string as one varint succeeds if and only if the string is non-empty, only its last byte has the top bit clear, and its base-128 value is below 2^64 within ten bytes; the result is then exactly that value (no bit is silently lost). Every other string is refused, and the refusal says which defect it has.", "quantifier": "every byte string of any length", "why_tests_cant": "The set of byte strings is infinite; overflow at the tenth byte and misplaced continuation bits are rare corners.", "anchors": ["src/formats/protobuf/varint.rs: decode_u64, VarIntError"]}
{"id": "C03", "title": "Incremental varint decoder agrees with the slice decoder", "statement": "Feeding a byte string one byte at a time to the incremental decoder finishes at the same byte with the same value as the whole-slice decoder, and rejects what the whole-slice decoder rejects.", "quantifier": "every byte string of any length, fed in any chunking", "why_tests_cant": "The two decoders are separate code; agreement is a claim over all strings, and they differ only at the tenth byte.", "anchors": ["src/formats/protobuf/varint.rs: U64Decoder::input, decode_u64", "src/libp2p/io.rs: ReadOptVarInt", "src/libp2p/mplex/frame.rs: extract_varint_u64"]}
{"id": "C04", "title": "Protobuf field sequence round trip", "statement": "Writing any sequence of varint, byte-string and string fields with the protobuf writer and reading the bytes with the protobuf reader returns exactly the same field numbers and values in the same order, then reports the end of input.", "quantifier": "every sequence of fields of any length, every field number and every payload", "why_tests_cant": "Round trip over unbounded sequences and payloads; interaction of tag, length prefix and adjacent fields.", "anchors": ["src/formats/protobuf/protobuf.rs: PBufWriter, PBufReader::read_field"]}
{"id": "C05", "title": "Protobuf reader is total and stays inside the buffer", "statement": "On every byte string the protobuf reader either returns all fields and consumes the input exactly, or returns an error; it never reads outside the buffer, every step makes progress, and each returned payload is the contiguous piece of the input at the reported offset, the pieces and their headers tiling the consumed input in order.", "quantifier": "every byte string of any length", "why_tests_cant": "Malformed and adversarial inputs (huge length prefixes, truncated tags) are unbounded.", "anchors": ["src/formats/protobuf/protobuf.rs: PBufReader::{read_field,read_varint,read_length_delimited,read}"]}
{"id": "C06", "title": "Protobuf fixed 64-bit fields round trip", "statement": "A 64-bit value written with the fixed64, sfixed64 or double writer is read back by the fixed 64-bit reader as the same value.", "quantifier": "every 64-bit value and field number", "why_tests_cant": "Tests tend to use small or symmetric values; byte order only shows on the others.", "anchors": ["src/formats/protobuf/protobuf.rs: PBufWriter::{write_fixed64,write_sfixed64,write_double}, Bits64"]}
{"id": "C07", "title": "Protobuf fixed 32-bit fields can be written", "statement": "A 32-bit value written with the fixed32, sfixed32 or float writer is read back as the same value.", "quantifier": "every 32-bit value and field number", "why_tests_cant": "Whether the writer can succeed at all on any input is a universally quantified question.", "anchors": ["src/formats/protobuf/protobuf.rs: PBufWriter::{write_tag,write_fixed32,write_sfixed32,write_float}"]}
{"id": "C08", "title": "Protobuf scalar conversions are faithful", "statement": "For each scalar type carried in a varint (int32, int64, uint32, uint64, sint32, sint64, bool), encoding a value and decoding it as the same type returns the same value; the sint (zigzag) mapping is a bijection in which small magnitudes get small encodings.", "quantifier": "every value of each scalar type", "why_tests_cant": "2^64 values per type; sign-extension and zigzag errors sit at the extremes.", "anchors": ["src/formats/protobuf/protobuf.rs: VarInt::{to_int32,to_int64,to_uint32,to_uint64,to_sint32,to_sint64,to_bool}, PBufWriter::write_*"]}
{"id": "C09", "title": "IPFS DAG node round trip", "statement": "A DAG-PB node or link serialised with its protobuf form and parsed again is the same node: same links in the same order, same hashes, names, sizes and data, with absent and empty fields kept distinct.", "quantifier": "every node with any number of links and any contents", "why_tests_cant": "Unbounded nested messages; loss of optional/empty distinctions is easy to miss.", "anchors": ["src/ipfs/dagpb.rs: PBLink, PBNode to_pb/from_pb"]}
{"id": "C10", "title": "Bitswap message round trip", "statement": "A bitswap want-list entry, want-list or message serialised and parsed again is the same, for the fields the sender populates (want-list and blocks); content the serialiser does not carry is named exactly. Fields left out of an entry take the protocol's defaults.", "quantifier": "every entry, want-list and message of any length", "why_tests_cant": "Unbounded nesting; dropped fields show up only for messages that populate them.", "anchors": ["src/ipfs/bitswap/message.rs: Entry, WantList, Block, Message to_pb/from_pb"]}
{"id": "C11", "title": "Identify message round trip", "statement": "A libp2p identify message serialised and parsed again is the same message, including the order of addresses and protocols.", "quantifier": "every identify message", "why_tests_cant": "Unbounded lists of addresses and protocols.", "anchors": ["src/libp2p/identify.rs: Identify to_pb/from_pb"]}
{"id": "C12", "title": "Public key envelope round trip", "statement": "A libp2p public key serialised and parsed again is the same key; an envelope with a missing or repeated-as-wrong-type field is refused, and no key of an unknown type is ever produced.", "quantifier": "every key type and key data; every byte string for refusal", "why_tests_cant": "Unbounded key data and adversarial byte strings.", "anchors": ["src/libp2p/peer_id.rs: KeyType, PublicKey from_pb/to_pb"]}
{"id": "C13", "title": "Multibase round trip for all twelve bases", "statement": "For each of the twelve supported bases, encoding any byte string and decoding the text returns the same bytes and the same base.", "quantifier": "every byte string of any length, in every base", "why_tests_cant": "Length modulo 1..5 interacts with padding, leading zeros with base58; unbounded lengths.", "anchors": ["src/ipfs/types/multibase.rs: encode, decode, encode_base58, decode_base58, encode_base16, encode_base32, encode_base64, decode_basen"]}
{"id": "C14", "title": "Multibase rejects text outside the alphabet", "statement": "Decoding text fails, rather than returning bytes, whenever the first character is not a supported base code or, for the alphabet-based encodings, some character before the padding is not in that base's alphabet; every decode either succeeds or returns an error.", "quantifier": "every text of any length", "why_tests_cant": "Alphabets have 58 to 65 members out of 256 bytes at every position of unbounded text.", "anchors": ["src/ipfs/types/multibase.rs: decode, decode_noprefix, decode_base58, decode_basen"]}
{"id": "C15", "title": "CID binary round trip", "statement": "Every version-0 or version-1 content identifier serialised to bytes and parsed again is the same identifier, and distinct identifiers serialise to distinct bytes. The byte strings accepted as version-1 identifiers are exactly version, codec, hash code, digest length and a digest of that length, with nothing behind it.", "quantifier": "every codec, hash function code and digest of any length", "why_tests_cant": "Unbounded digests and codes; version 0 and 1 share a parser and could be confused.", "anchors": ["src/ipfs/types/cid.rs: RawCID/CID to_bytes, to_bytes_v1, from_bytes, from_bytes_v1, is_cid_v0"]}
{"id": "C16", "title": "CID text round trip", "statement": "Every content identifier printed as text and parsed again is the same identifier.", "quantifier": "every content identifier", "why_tests_cant": "Combines multibase and binary parsing over unbounded digests; version 0 and 1 text must not collide.", "anchors": ["src/ipfs/types/cid.rs: Display for CID, from_string, is_cid_v0"]}
{"id": "C17", "title": "Multiaddress round trip and totality", "statement": "A sequence of known addresses (IP4, IP6, TCP, UDP, QUIC) serialised to bytes and parsed again is the same sequence. On any byte string the parser terminates without reading out of bounds, and serialising the result of a parse that had no unrecognised part gives bytes that parse to the same sequence.", "quantifier": "every sequence of components; every byte string", "why_tests_cant": "Unbounded component sequences and malformed inputs.", "anchors": ["src/libp2p/multiaddr.rs: MultiAddr::from_bytes/to_bytes, Addr"]}
{"id": "C18", "title": "Binary reader never leaves its buffer", "statement": "Every operation of the network binary reader either succeeds, with the position advanced by exactly the number of bytes returned or described and still within the buffer, or fails leaving nothing read out of bounds; a nested reader can never see bytes beyond the length its parent announced.", "quantifier": "every buffer, position, operation and sequence of operations", "why_tests_cant": "Length arithmetic at the edge of the buffer and at integer overflow cannot be sampled.", "anchors": ["src/util/binary.rs: BinaryReader"]}
{"id": "C19", "title": "Binary writer/reader round trip", "statement": "Every integer (8, 16, 24, 32, 64 bits), length-prefixed byte string and length-prefixed list written by the binary writer is read back as the same value, wherever it lies in the buffer, and integers are laid out most significant byte first.", "quantifier": "every value that fits the width, every surrounding content", "why_tests_cant": "Unbounded payloads and nesting.", "anchors": ["src/util/binary.rs: BinaryWriter, BinaryReader"]}
{"id": "C20", "title": "Length-prefixed writes are all-or-nothing", "statement": "A length-prefixed write either appends the prefix and the whole content, or returns an error and leaves the output exactly as it was; it fails exactly when the content does not fit the prefix width.", "quantifier": "every content length, every prior output", "why_tests_cant": "The boundary sits at 2^8, 2^16, 2^24 bytes; partial output after an error is a state no round-trip test looks at.", "anchors": ["src/util/binary.rs: write_len8_bytes..write_len24_list, write_u16_nested"]}
{"id": "C21", "title": "QUIC variable-length integer round trip", "statement": "Every integer below 2^62 written as a QUIC variable-length integer is read back unchanged and uses the shortest of the 1, 2, 4, 8 byte forms; distinct integers have distinct encodings and no encoding is a prefix of another's.", "quantifier": "every integer below 2^62", "why_tests_cant": "Four length classes with power-of-two boundaries.", "anchors": ["src/util/binary.rs: write_quic_varint, read_quic_varint"]}
{"id": "C22", "title": "TLS handshake message round trip", "statement": "A legal TLS ClientHello, ServerHello, Certificate, CertificateVerify or Finished message (extensions standing where the protocol allows them, named codes represented by their names) that the writer accepts is read back as the same message, with nothing left over; a Finished message, whose body has no inner structure, is read back when it is the last thing in its buffer.", "quantifier": "every message with any number of cipher suites, extensions, key shares, certificates and any payloads", "why_tests_cant": "Deeply nested length-prefixed lists with context-dependent extensions.", "anchors": ["src/tls/types/handshake.rs: Handshake to_binary/from_binary", "src/tls/types/extension.rs: Extension"]}
{"id": "C23", "title": "TLS code-point tables are faithful", "statement": "Each 8- or 16-bit code read into an enumeration (cipher suites, signature schemes, named groups, alert descriptions, content types, ...) and written back is the same code, and every enumeration member written and read back is the same member.", "quantifier": "every code point in every table", "why_tests_cant": "Tables have up to 65536 inputs; unknown codes must survive.", "anchors": ["src/tls/types/extension.rs, src/tls/types/alert.rs, src/tls/types/record.rs, src/tls/types/handshake.rs: from_raw/to_raw"]}
{"id": "C24", "title": "TLS record reassembly does not depend on chunking", "statement": "However the transport splits the incoming byte stream into chunks, the sequence of records handed to the upper layer is the same, equals the records the sender framed, and each record is at most the maximum length; oversize records are errors.", "quantifier": "every sequence of records and every partition of their bytes into chunks", "why_tests_cant": "Exponentially many chunkings; header splits are the usual bug.", "anchors": ["src/tls/protocol/stream.rs: RecordReceiver", "src/tls/types/record.rs: TLSCiphertext::from_raw_data"]}
{"id": "C25", "title": "TLS record protection round trip", "statement": "What one side encrypts, the other side, with the same keys and the same record number, decrypts to the same message content and type, whatever the content and however much zero padding is appended.", "quantifier": "every content up to the maximum size, every record number, every padding length", "why_tests_cant": "Content that itself ends in zero bytes, and empty content, interact with padding removal.", "anchors": ["src/tls/helpers.rs: encrypt_traffic, decrypt_traffic, decrypt_message", "src/tls/protocol/stream.rs: encrypt_record"]}
{"id": "C26", "title": "No nonce is used twice under one TLS key", "statement": "Over the whole life of an established connection, any two records sent under the same key use different nonces, and record numbers used for sending are 0,1,2,... without gaps, whatever mix of writes, flushes, shutdowns and errors occurs.", "quantifier": "every history of operations (up to 2^64 records)", "why_tests_cant": "A property of histories: any path that encrypts without advancing the counter breaks it.", "anchors": ["src/tls/helpers.rs: encrypt_traffic", "src/tls/protocol/client.rs: EstablishedConnection::append_record, poll_write, poll_shutdown"]}
{"id": "C27", "title": "Bytes written to a TLS connection arrive in order, exactly once", "statement": "If the peer decrypts, in order, the records a client connection emitted, the concatenation of the contents is exactly the concatenation of the byte ranges that the write calls reported as accepted.", "quantifier": "every sequence of writes of any sizes", "why_tests_cant": "Splitting at 16384 bytes, partial acceptance and interleaved flushes over unbounded histories.", "anchors": ["src/tls/protocol/client.rs: poll_write, append_record"]}
{"id": "C28", "title": "End of a TLS stream is reported only on authenticated close", "statement": "A read returns end-of-stream only after the peer's authenticated close_notify alert; if the transport ends without it, the reader gets an error, never a clean end-of-stream.", "quantifier": "every sequence of records, chunkings and transport endings", "why_tests_cant": "Truncation attacks may cut at any byte of an unbounded stream.", "anchors": ["src/tls/protocol/client.rs: EstablishedConnection::poll_fill_incoming, poll_read"]}
{"id": "C29", "title": "A TLS connection is handed out only after full server authentication", "statement": "The handshake returns an established connection only if the server's Finished message verified against the transcript, a certificate was received and verified against the configured trust anchor, and the certificate's key verified the signature over the transcript up to the certificate, all of it received in records protected with the handshake keys; with no trust anchor configured no connection is handed out at all.", "quantifier": "every sequence of server messages and every outcome of the cryptographic checks", "why_tests_cant": "Adversarial message orders: skipped or repeated messages.", "anchors": ["src/tls/protocol/client_state.rs: ClientState", "src/tls/protocol/client.rs: compute_application_secrets"]}
{"id": "C30", "title": "TLS handshake completes on exactly the legal server flights", "statement": "The handshake completes only if the server sent ServerHello, EncryptedExtensions, at most one CertificateRequest, Certificate, CertificateVerify and Finished, each once and in this order; each such order is accepted; after any deviation from it no later message can bring the handshake to completion, and an error is final. An error of the transport while waiting for the server is the result of the handshake.", "quantifier": "every sequence of messages and every behaviour of the transport", "why_tests_cant": "The set of sequences is infinite.", "anchors": ["src/tls/protocol/client_state.rs: ClientState::on_hash_and_handshake", "src/tls/protocol/client.rs: EstablishConnection::poll, ReceiveServerMessages::poll"]}
{"id": "C31", "title": "Write after shutdown is refused", "statement": "After shutting down a multiplexed stream has succeeded, or shutting down a TLS stream has been requested, every later write on it fails and nothing more is appended to the outgoing data for that stream.", "quantifier": "every history after the shutdown", "why_tests_cant": "A claim about all later operations.", "anchors": ["src/tls/protocol/client.rs: poll_write, poll_shutdown", "src/libp2p/mplex/stream.rs: poll_write, poll_shutdown"]}
{"id": "C32", "title": "ASN.1 DER round trip", "statement": "Every ASN.1 item encoded to DER and decoded again is the same item.", "quantifier": "every item: any nesting depth, any tag number, any content length", "why_tests_cant": "Recursive values with multi-byte lengths and tags.", "anchors": ["src/formats/asn1/writer.rs: encode_item", "src/formats/asn1/reader.rs: read_item"]}
{"id": "C33", "title": "Bencode parsing inverts bencode encoding", "statement": "For every bencode value (byte strings, non-negative integers, lists, dictionaries with text keys), parsing its standard encoding yields the value, and the recorded start/end offsets of each value delimit exactly the bytes of its encoding.", "quantifier": "every value of any depth and size, with any trailing bytes", "why_tests_cant": "Recursive values; the info-hash is computed from the recorded span, so an off-by-one silently produces a wrong hash.", "anchors": ["src/formats/bencoding/mod.rs: parse, parse_value"]}
{"id": "C34", "title": "Hex text round trip", "statement": "Printing any byte string as hex and parsing it returns the same bytes; parsing accepts exactly the even-length strings of hex digits of either case.", "quantifier": "every byte string and every text", "why_tests_cant": "Unbounded lengths; the accepted set is a claim over all texts.", "anchors": ["src/util/util.rs: BinaryData, from_hex"]}
{"id": "C35", "title": "Bit field behaves as a set of piece numbers", "statement": "After any sequence of bit field messages, piece i counts as present exactly if the last message long enough to cover it has bit i set, where bit 0 is the top bit of byte 0; it is absent if no message covers it. The numbers of present and of missing pieces are counted correctly and add up to the number of pieces.", "quantifier": "every size and every sequence of operations", "why_tests_cant": "Unbounded sizes and histories; bit/byte index arithmetic.", "anchors": ["src/bittorrent/data.rs: BitField"]}
{"id": "C36", "title": "Multiplexer framing round trip under any chunking", "statement": "Any sequence of multiplexer frames appended to the output buffer and received through a transport that splits the bytes arbitrarily is read back as the same sequence of frames. Whatever bytes arrive, the frames reported are those the bytes consist of, and a frame that has arrived in full is reported.", "quantifier": "every sequence of frames, every chunking", "why_tests_cant": "Exponentially many chunkings of unbounded streams, with varint headers split anywhere.", "anchors": ["src/libp2p/mplex/frame.rs: FrameStream::poll_read_frame, append_new, append_message, append_close"]}
{"id": "C37", "title": "Multiplexed streams do not mix and keep order", "statement": "Each multiplexed stream's reader gets exactly the payload bytes addressed to that stream, in order, whatever the interleaving with other streams and whatever order the readers poll in.", "quantifier": "every interleaving of frames for any number of streams and every polling order", "why_tests_cant": "Schedules are unbounded.", "anchors": ["src/libp2p/mplex/stream.rs: MplexShared::poll_read, poll_fill_incoming, poll_accept_id"]}
{"id": "C38", "title": "Locally opened stream identifiers are never reused", "statement": "Over the life of a multiplexed connection no two locally opened streams get the same identifier, and a locally opened stream is never confused with a remotely opened one of the same number.", "quantifier": "every history of connects and accepts", "why_tests_cant": "History property.", "anchors": ["src/libp2p/mplex/stream.rs: connect, next_stream_num", "src/libp2p/mplex/frame.rs: StreamId"]}
{"id": "C39", "title": "Protocol negotiation picks only the requested protocol", "statement": "Negotiating a protocol succeeds only if the remote sent the negotiation header followed by exactly the requested protocol name; 'na' is reported as unsupported, anything else is an error. What the remote sends behind its answer is left for the negotiated protocol.", "quantifier": "every sequence of bytes from the remote", "why_tests_cant": "Adversarial remote input.", "anchors": ["src/libp2p/multistream.rs: multistream_select"]}
{"id": "C40", "title": "Length-prefixed messages survive any chunking", "statement": "A length-prefixed message read from a transport that delivers its bytes in any chunks is the message that was written; a stream that ends cleanly between messages reports end, one that ends inside a message reports an error.", "quantifier": "every message, every chunking, every truncation point", "why_tests_cant": "Exponentially many chunkings and truncations.", "anchors": ["src/libp2p/io.rs: read_opt_length_prefixed_data, write_length_prefixed_data, ReadOptVarInt"]}
{"id": "C41", "title": "Simulated channel conserves and orders packets", "statement": "The simulated lossy channel only ever delivers packets that were sent, never before their delivery time, in order of delivery time, and never more copies than the loss and duplication decisions created.", "quantifier": "every history of sends and receives and every sequence of random decisions", "why_tests_cant": "Histories and random outcomes are unbounded.", "anchors": ["src/sim/network.rs: Channel"]}
{"id": "C42", "title": "IPFS directory listing has unique non-empty names", "statement": "A directory built from a DAG node has one entry per link, with unique non-empty names, and lookup by name finds exactly the link of that name; a node with duplicate or empty names is refused.", "quantifier": "every DAG node", "why_tests_cant": "Unbounded link lists.", "anchors": ["src/ipfs/fs.rs: Directory::from_dagpb"]}
{"id": "C43", "title": "Block identifiers bind content", "statement": "The identifier computed for a received block equals the identifier under which it was requested only if the prefix matches and the digest of the received bytes under the named hash equals the requested digest; unsupported hash functions are refused.", "quantifier": "every block and prefix", "why_tests_cant": "Adversarial blocks.", "anchors": ["src/ipfs/bitswap/block.rs: get_block_cid"]}
{"id": "C44", "title": "QUIC header protection is inverse", "statement": "Removing header protection from a protected packet with the same key restores the original first byte and packet number bytes and changes nothing else, for long and short headers and each packet-number length.", "quantifier": "every packet, mask, packet-number length and offset behind the first byte", "why_tests_cant": "Interaction of the masked length bits with the number of masked bytes.", "anchors": ["src/quic/encryption.rs: add_header_protection, remove_header_protection"]}
{"id": "C45", "title": "QUIC crypto stream reassembly is order independent", "statement": "Whatever order, duplication and overlap the crypto frames of a stream arrive in, the reassembled data is at every moment a prefix of the stream sent, and once frames covering it have arrived it is the whole stream.", "quantifier": "every stream, every set of frames, every arrival order", "why_tests_cant": "Factorially many orders with overlaps.", "anchors": ["src/quic/spec.rs: CryptoStream"]}
{"id": "C46", "title": "QUIC transport parameters round trip", "statement": "A list of transport parameters encoded and decoded is the same list, unknown parameters are preserved, and no input makes the decoder read out of bounds.", "quantifier": "every list of parameters", "why_tests_cant": "Unbounded lists and values.", "anchors": ["src/quic/parameters.rs: encode_list, decode_list"]}
{"id": "C47", "title": "PEM round trip", "statement": "Any byte string encoded as PEM under a label of upper-case letters and spaces decodes to the same label and bytes.", "quantifier": "every byte string and label", "why_tests_cant": "Line wrapping at 64 columns and base64 padding interact with length.", "anchors": ["src/crypto/pem.rs: encode_pem, decode_pem"]}
{"id": "C48", "title": "PEM decoding always terminates", "statement": "Decoding any text as PEM returns a result or an error.", "quantifier": "every text", "why_tests_cant": "Termination on all inputs cannot be observed by running finitely many.", "anchors": ["src/crypto/pem.rs: expect_string, decode_pem"]}
{"id": "C49", "title": "Block requests tile every piece of a torrent", "statement": "The block requests created for a download cover every byte of every piece exactly once and nothing beyond, each at most 16384 bytes; at all times each request is pending, active or complete and completing all of them completes the download.", "quantifier": "every torrent geometry and every history of starts and completions", "why_tests_cant": "Last-piece arithmetic and unbounded histories.", "anchors": ["src/bin/torrent_client.rs: Transfer", "src/bittorrent/torrent.rs"]}
{"id": "C50", "title": "BitTorrent peer message framing survives any chunking", "statement": "Handshake and length-prefixed peer messages extracted from a receive buffer are the same however the bytes were split, and message bodies that the parser accepts carry exactly the transmitted fields; no message makes the client panic.", "quantifier": "every message sequence and chunking; every body", "why_tests_cant": "Adversarial peers and exponentially many chunkings.", "anchors": ["src/bin/torrent_client.rs: get_next_message, parse_message, encode_handshake, do_peer"]}
{"id": "C51", "title": "X.509 structures round trip", "statement": "A certificate converted to its ASN.1 structure and back is the same certificate.", "quantifier": "every certificate in the supported form", "why_tests_cant": "Nested optional fields.", "anchors": ["src/crypto/x509.rs: Certificate, TBSCertificate, Extension, ... to_asn1/from_asn1"]}
{"id": "C52", "title": "Stop-and-wait transfer delivers in order, exactly once", "statement": "In the simulated transfer protocol, over a channel that loses, duplicates and delays packets, the receiver's delivered sequence is always a prefix of the sender's sequence; what is acknowledged has been delivered, neither is ever taken back, and at most one message is sent and not yet acknowledged.", "quantifier": "every schedule, loss and duplication pattern", "why_tests_cant": "Schedules are unbounded.", "anchors": ["src/bin/netsim.rs: Peer::step", "src/sim/network.rs"]}
{"id": "C53", "title": "Parsing a TLS handshake message never crashes", "statement": "Whatever bytes a peer sends as a handshake message or as the contents of a record, parsing them returns a message or an error; it never crashes, never loops and never looks outside the bytes.", "quantifier": "every byte string and content type", "why_tests_cant": "A crash on one message type out of 256 with one particular body is found only by reading all bytes of all types.", "anchors": ["src/tls/types/handshake.rs: Handshake::from_binary", "src/tls/types/record.rs: Message::from_raw"]}
{"id": "C54", "title": "A TLS handshake message stays within its announced length", "statement": "A handshake message is interpreted only from the bytes that its 24-bit length covers: if it is read successfully with more bytes behind it, it is read to the same result without them; and messages written announce exactly the length of their body.", "quantifier": "every message body and every continuation", "why_tests_cant": "Requires relating two parses of different inputs, for all inputs.", "anchors": ["src/tls/types/handshake.rs: Handshake::from_binary, Handshake::to_binary"]}
{"id": "C55", "title": "A wrong Finished message is an error, not a crash", "statement": "Whatever bytes the server sends as the contents of its Finished message, the client answers with an error unless they are the right ones; it never crashes.", "quantifier": "every contents of every length", "why_tests_cant": "A crash that needs a Finished of an unusual length, sent by a peer who completed the key exchange, is not met by interoperability tests.", "anchors": ["src/crypto/crypt.rs: hmac_verify", "src/tls/helpers.rs: verify_finished"]}
{"id": "C56", "title": "A transport that takes nothing is reported, not retried forever", "statement": "If the transport answers that it took zero bytes, flushing a TLS connection reports an error; one call of flush always ends.", "quantifier": "every sequence of answers of the transport", "why_tests_cant": "Non-termination cannot be observed in a finite run.", "anchors": ["src/tls/protocol/stream.rs: PlaintextStream::poll_flush"]}
{"id": "C57", "title": "After a failed read a TLS connection gives no more data", "statement": "Once a read of a TLS connection has failed, no later read returns data (RFC 8446: all such errors are fatal).", "quantifier": "every history after the failure", "why_tests_cant": "A claim about all later histories under an active attacker.", "anchors": ["src/tls/protocol/client.rs: EstablishedConnection::poll_fill_incoming, poll_read"]}
{"id": "C58", "title": "Complete TLS records are delivered without waiting for the transport", "statement": "If a complete record with application data has arrived and has not been read, a read returns its data; it does not wait for the transport.", "quantifier": "every state of a connection with a complete record in its buffer, every behaviour of the transport", "why_tests_cant": "Depends on how records coincide with the chunks of the transport.", "anchors": ["src/tls/protocol/client.rs: EstablishedConnection::poll_fill_incoming"]}
{"id": "C59", "title": "The server certificate must be for the configured server name", "statement": "If a server name is configured, the handshake completes only if the server's certificate is for that name.", "quantifier": "every certificate, every name and every run", "why_tests_cant": "A missing check is invisible to tests with the right certificate.", "anchors": ["src/tls/protocol/client.rs: ClientConfig, compute_application_secrets, verify_certificate"]}
{"id": "C60", "title": "Integrity of the data read from a TLS connection", "statement": "Whatever arrives from the transport, the bytes given to the reader are exactly the application data of records that authenticate under the peer's key with consecutive record numbers, in the order in which they arrived: nothing is forged, repeated, reordered or left out in between.", "quantifier": "every history of calls and every byte stream, split and ended in any way", "why_tests_cant": "An active attacker may replay, drop, reorder and alter any bytes of an unbounded stream.", "anchors": ["src/tls/protocol/client.rs: EstablishedConnection::poll_fill_incoming, poll_read", "src/tls/protocol/stream.rs: poll_receive_encrypted_message"]}
{"id": "C61", "title": "TLS keys follow the RFC 8446 key schedule", "statement": "Handshake and application keys and ivs of both directions are the ones that the key schedule of RFC 8446 7.1 gives for the agreed secret and the exact bytes of the messages exchanged; the Finished message the client sends is the keyed hash of those bytes.", "quantifier": "every handshake", "why_tests_cant": "A wrong label or transcript cut is symmetric in tests of a program against itself, and depends on the optional messages.", "anchors": ["src/tls/helpers.rs: hkdf_expand_label, derive_secret, TrafficSecrets::derive_from, EncryptionKey::new", "src/tls/protocol/client.rs: compute_application_secrets, get_handshake_encryption"]}
{"id": "C62", "title": "The split of handshake messages into records makes no difference", "statement": "A server may put several handshake messages into one record or spread one over several records (RFC 8446 5.1); the client reads the same messages however they are split.", "quantifier": "every legal flight of messages and every split of its bytes into records", "why_tests_cant": "Depends on the server's implementation; a test server has one fixed way of packing.", "anchors": ["src/tls/protocol/stream.rs: poll_receive_encrypted_message", "src/tls/types/record.rs: Message::from_raw", "src/tls/protocol/client.rs: ReceiveServerMessages::poll"]}
{"id": "C63", "title": "ASN.1 reader is total and its recorded ranges are exact", "statement": "On any bytes the reader ends with an item or an error, without a crash and without leaving the input. The range recorded in each item and nested item lies in the input and delimits exactly its encoding: children lie side by side without gaps, and the delimited bytes taken alone decode to the same item.", "quantifier": "every byte string and start position; every item at any depth", "why_tests_cant": "Ranges are used to cut the signed part out of a certificate; an off-by-one at some depth or length form is invisible until a signature check is bypassed or fails.", "anchors": ["src/formats/asn1/reader.rs: read_item, read_value, read_item_list", "src/tls/protocol/client.rs: verify_certificate"]}
{"id": "C64", "title": "Object identifiers are decoded exactly or refused", "statement": "Decoding the DER encoding of an object identifier gives its components, or an error if they cannot be represented; never a different identifier.", "quantifier": "every object identifier", "why_tests_cant": "Only identifiers with large components show the difference, and a wrong identifier can select a wrong algorithm or name attribute.", "anchors": ["src/formats/asn1/reader.rs: read_object_identifier, read_var_u64"]}
{"id": "C65", "title": "Language of the bencode parser", "statement": "The parser accepts exactly the inputs that begin with a bencode value in which numbers may have leading zeros and dictionary keys may come in any order, the last of equal keys counting; every part of the result carries the positions of the bytes that encode it, inside the input; and every input is answered.", "quantifier": "every byte string of less than 2^64 bytes", "why_tests_cant": "The accepted set is a claim over all inputs of every nesting depth.", "anchors": ["src/formats/bencoding/mod.rs: parse, parse_value, parse_dict, parse_list"]}
{"id": "C66", "title": "PEM texts accepted", "statement": "The PEM decoder accepts exactly the texts made of a BEGIN line, base64 text broken into lines anywhere, and an END line with the same label at the very end, and returns that label and the decoded bytes; with an expected label it accepts only text under that label.", "quantifier": "every text", "why_tests_cant": "The accepted set is a claim over all texts.", "anchors": ["src/crypto/pem.rs: decode_pem, decode_pem_with_label"]}
{"id": "C67", "title": "Multibase text follows the standard of its base", "statement": "The text produced for any bytes is the one text that RFC 4648 (bases 16, 32 and 64, with or without padding) or base 58 prescribes, after the base code of the multibase table, so other implementations can read it.", "quantifier": "every byte string and every base", "why_tests_cant": "A round trip test cannot tell a wrong but self-consistent layout from the right one; unbounded lengths.", "anchors": ["src/ipfs/types/multibase.rs: encode, encode_noprefix"]}
{"id": "C68", "title": "What is written to multiplexed streams leaves as their frames, in order", "statement": "What has been given to the transport, followed by what is still buffered, is exactly one frame for each stream opened, each write accepted and each shutdown, in the order they happened, addressed to the stream under the role its peer knows it by. A write is accepted whole or not at all, and after a successful flush nothing is buffered.", "quantifier": "every history of operations on any number of streams and every behaviour of the transport", "why_tests_cant": "Histories and transport behaviours are unbounded.", "anchors": ["src/libp2p/mplex/stream.rs: StreamWriter::poll_write, poll_flush, poll_shutdown, Connect::poll", "src/libp2p/mplex/frame.rs: FrameStream::poll_drain"]}
{"id": "C69", "title": "No bytes from the peer crash a multiplexed connection", "statement": "Whatever bytes the peer sends, no operation on a multiplexed connection or one of its streams panics.", "quantifier": "every sequence of bytes from the peer and every history of operations", "why_tests_cant": "Adversarial input of any length.", "anchors": ["src/libp2p/mplex/frame.rs: FrameStream::poll_read_frame"]}
{"id": "C70", "title": "Shutting down a multiplexed stream tells the peer", "statement": "When shutting down a multiplexed stream has succeeded, everything written to it and the announcement that it is closed have been given to the transport.", "quantifier": "every history and every behaviour of the transport", "why_tests_cant": "History property.", "anchors": ["src/libp2p/mplex/stream.rs: StreamWriter::poll_shutdown"]}
{"id": "C71", "title": "A multiplexed stream ends only when it was closed", "statement": "A read with room for data on a multiplexed stream returns no bytes only if the peer has closed that stream or the transport has ended.", "quantifier": "every history and every sequence of frames from the peer", "why_tests_cant": "Applications take an empty read as the end of the data; no finite set of frame sequences shows that it always is.", "anchors": ["src/libp2p/mplex/stream.rs: MplexShared::poll_read"]}
{"id": "C72", "title": "A stream that is not read does not block others", "statement": "If a message for an open stream has arrived in full, a read on that stream does not wait, whether or not the users of other streams read.", "quantifier": "every interleaving and every polling order", "why_tests_cant": "Schedules are unbounded.", "anchors": ["src/libp2p/mplex/stream.rs: MplexShared::poll_read, poll_fill_incoming"]}
{"id": "C73", "title": "Hopeless frame headers are refused", "statement": "Bytes from the peer that no continuation can turn into a frame are refused; they are not kept in memory while waiting for more.", "quantifier": "every sequence of bytes", "why_tests_cant": "Unbounded input.", "anchors": ["src/libp2p/mplex/frame.rs: FrameStream::poll_read_frame, extract_varint_u64"]}
{"id": "C74", "title": "Only a complete list of protocols is returned", "statement": "Asking a peer for its list of protocols returns a list only if the peer sent every byte of the length it announced and those bytes are a sequence of whole names.", "quantifier": "every sequence of bytes from the remote, every chunking and truncation", "why_tests_cant": "Adversarial remote input and exponentially many truncations.", "anchors": ["src/libp2p/multistream.rs: multistream_list"]}
{"id": "C75", "title": "The answering side confirms the service it starts", "statement": "When a peer asks for a service and the service is started on the stream, the answer the peer got names that service; services that are not offered are answered with 'na'.", "quantifier": "every set of offered services, every sequence of requests", "why_tests_cant": "Any sequence of requests from the remote.", "anchors": ["src/bin/ipfs.rs: connection_handler2", "src/ipfs/node.rs: ServiceRegistry::lookup"]}
{"id": "C76", "title": "A lost packet is sent again after its timeout", "statement": "In the simulated transfer protocol, a message that is not acknowledged is sent again once its retransmission timeout has passed and the channel is ready, and not earlier.", "quantifier": "every schedule, loss pattern and channel rate", "why_tests_cant": "Depends on timing and losses over unbounded runs.", "anchors": ["src/bin/netsim.rs: Peer::step"]}
{"id": "C77", "title": "QUIC packet protection round trip", "statement": "A packet protected under a key and a packet number, followed by anything, is opened under the same key to the same packet number and payload; and when the cipher is authentic, a packet that opens was sealed under that key with that number, header and payload.", "quantifier": "every payload, header, packet number of one to four bytes, key, trailing data", "why_tests_cant": "Interaction of header protection, lengths, nonce and associated data over all inputs.", "anchors": ["src/quic/encryption.rs: encrypt_payload, decrypt_payload"]}
{"id": "C78", "title": "QUIC Initial packets round trip", "statement": "An Initial packet built from connection identifiers, token, packet number and payload is parsed, whatever follows it in the datagram, to the same identifiers, token, packet number and frames.", "quantifier": "every identifier of at most 20 bytes, token, payload, packet number below 2^62", "why_tests_cant": "Length fields, padding and truncated packet numbers interact with sizes that tests do not reach.", "anchors": ["src/bin/quic_test.rs: encode_initial_packet, make_initial, parse_packet"]}
{"id": "C79", "title": "No received datagram crashes the QUIC receiver", "statement": "Parsing a received datagram gives a packet or an error for every content of the datagram.", "quantifier": "every datagram", "why_tests_cant": "Adversarial datagrams.", "anchors": ["src/bin/quic_test.rs: parse_packet", "src/quic/encryption.rs: decrypt_payload"]}
{"id": "C80", "title": "QUIC frames are recognised by their standard types", "statement": "The payload of a packet is read as the sequence of frames that RFC 9000 gives it, for the frame types PADDING, PING, CRYPTO and CONNECTION_CLOSE.", "quantifier": "every payload", "why_tests_cant": "Unbounded sequences of frames.", "anchors": ["src/bin/quic_test.rs: parse_frames"]}
{"id": "C81", "title": "CRYPTO frames are placed by their offset", "statement": "The handshake data taken from the CRYPTO frames of a packet is the stream they were cut from, whatever order they are in.", "quantifier": "every stream, every list of frames", "why_tests_cant": "Factorially many orders.", "anchors": ["src/bin/quic_test.rs: handle_packet, EncryptionLevel"]}
{"id": "C82", "title": "Received QUIC transport parameters can be written back", "statement": "Transport parameters received and written again are the same bytes.", "quantifier": "every accepted list of parameters", "why_tests_cant": "Every accepted input, not just those this program writes.", "anchors": ["src/quic/parameters.rs: encode_list, decode_list"]}
{"id": "C83", "title": "QUIC nonces are never reused", "statement": "The nonce of a packet is the initialisation vector combined with the packet number as RFC 9001 says, and different packet numbers give different nonces under the same key.", "quantifier": "every initialisation vector, all packet numbers below 2^64", "why_tests_cant": "Universal claim over pairs of 64-bit numbers.", "anchors": ["src/quic/encryption.rs: make_nonce"]}
{"id": "C84", "title": "QUIC stream identifiers tell initiator and direction", "statement": "The type of a stream computed from its identifier is the one of RFC 9000 for every identifier.", "quantifier": "every stream identifier", "why_tests_cant": "All 64-bit identifiers.", "anchors": ["src/quic/spec.rs: StreamId"]}
{"id": "C85", "title": "QUIC Initial packets are padded", "statement": "A packet built as an Initial packet takes at least 1200 bytes, as RFC 9000 requires, and no more than that unless its contents need more.", "quantifier": "every content", "why_tests_cant": "All combinations of lengths.", "anchors": ["src/bin/quic_test.rs: encode_initial_packet"]}
{"id": "C86", "title": "Downloaded pieces are checked against the torrent", "statement": "When a download ends with no request left, every piece received has the hash that the torrent file tells.", "quantifier": "every torrent, every hash function, every sequence of bytes a peer sends", "why_tests_cant": "A test with an honest peer passes either way; the claim is about all dishonest ones.", "anchors": ["src/bin/torrent_client.rs: Transfer::complete_request, do_peer"]}
{"id": "C87", "title": "Only peers of the same torrent are served", "statement": "After a handshake, the client exchanges messages only with a peer whose handshake names the torrent being downloaded.", "quantifier": "every sequence of bytes a peer sends", "why_tests_cant": "All possible handshakes and continuations.", "anchors": ["src/bin/torrent_client.rs: do_peer"]}
{"id": "C88", "title": "What the client sends to a peer is well-formed and asks for each block once", "statement": "Whatever the peer sends, the bytes sent to it are a handshake followed by well-formed messages; the requests among them are the requests of the torrent in order, none twice, and the ones not sent are still to be sent.", "quantifier": "every torrent and every sequence of bytes and chunks from the peer", "why_tests_cant": "Unbounded interleavings of permissions and blocks, also unsolicited and repeated ones.", "anchors": ["src/bin/torrent_client.rs: do_peer, Connection::queue_request"]}
{"id": "C89", "title": "At most 100 requests are outstanding", "statement": "At no time has the client more than 100 requests sent and not answered.", "quantifier": "every torrent and every sequence of bytes from the peer", "why_tests_cant": "Holds or fails only for histories with more than a hundred blocks, in any order of answers.", "anchors": ["src/bin/torrent_client.rs: do_peer"]}
{"id": "C90", "title": "A download makes progress and completes", "statement": "Once the peer has allowed requests, the client has a request outstanding as long as anything is missing. If the peer answers the requests in order, everything is received with the contents sent.", "quantifier": "every torrent, every contents, every chunking", "why_tests_cant": "Liveness over unbounded histories.", "anchors": ["src/bin/torrent_client.rs: do_peer, Transfer"]}
{"id": "C91", "title": "Torrent files give the fields they carry, and the info hash of the exact bytes", "statement": "A torrent file is accepted exactly if it describes a torrent whose pieces can hold its files; name, trackers, files, piece length and hashes are those in the file, whatever other keys are present; the info hash is the hash of the bytes of the info dictionary as they lie in the file.", "quantifier": "every torrent file, standard or not, and every hash function", "why_tests_cant": "Peers are found by the info hash; a wrong byte range shows only with particular files (extra keys, reordered keys, trailing data).", "anchors": ["src/bittorrent/torrent.rs: Torrent::from_bytes", "src/formats/bencoding/mod.rs"]}
{"id": "C92", "title": "Every standard torrent file is accepted", "statement": "A torrent file that has all that BEP 3 demands is accepted, with one file or several.", "quantifier": "every standard torrent file", "why_tests_cant": "Needs a quantifier over all files that conform to the standard.", "anchors": ["src/bittorrent/torrent.rs: Torrent::from_bytes"]}
{"id": "C93", "title": "No torrent file stops the program", "statement": "Reading a torrent file returns a torrent or an error, it does not panic.", "quantifier": "every sequence of bytes", "why_tests_cant": "Overflows need particular large values.", "anchors": ["src/bittorrent/torrent.rs: Torrent::from_bytes"]}
{"id": "C94", "title": "UDP trackers are spoken to as BEP 15 says", "statement": "Connect and announce requests have the layout of BEP 15; a connect response is accepted exactly if it is one for the same transaction, and the announce request then names its connection; an announce response is accepted exactly if it is one, and all its fields are returned.", "quantifier": "all field values and all datagrams received", "why_tests_cant": "Layout and acceptance for all values.", "anchors": ["src/bin/torrent_client.rs: open_tracker_connection, send_tracker_request, AnnounceResponse::parse", "src/bin/tracker.rs"]}
{"id": "C95", "title": "Announce responses are matched to the request", "statement": "Peers are only taken from an announce response that carries the transaction number of the request.", "quantifier": "all transaction numbers and datagrams", "why_tests_cant": "UDP datagrams can be forged; a test with an honest tracker passes either way.", "anchors": ["src/bin/torrent_client.rs: receive_tracker_response", "src/bin/tracker.rs: main"]}
{"id": "C96", "title": "All peers of an announce response are returned", "statement": "Every peer in a response of a tracker is returned.", "quantifier": "responses with any number of peers", "why_tests_cant": "Shows only for more than 679 peers.", "anchors": ["src/bin/torrent_client.rs: receive_tracker_response"]}
{"id": "C97", "title": "The tracker tool reads every announce response", "statement": "A well-formed announce response is accepted, and no datagram makes the tool panic.", "quantifier": "all datagrams", "why_tests_cant": "Overflows need particular counts.", "anchors": ["src/bin/tracker.rs: AnnonuceResponse::from"]}
{"id": "C98", "title": "An encoded certificate reads back unchanged", "statement": "Encoding a certificate to bytes and reading those bytes gives a certificate with the same contents: version, serial number, algorithms, names, validity, key, extensions with their critical flags, and signature.", "quantifier": "for every certificate in the supported form whose encoding is shorter than 2^32 bytes", "why_tests_cant": "The flag of an extension is lost only for certificates with a critical extension; a test would have to compare every field of such a certificate.", "anchors": ["src/crypto/x509.rs:133-173", "src/crypto/x509.rs:350-431", "src/formats/asn1/writer.rs"]}
{"id": "C99", "title": "Exactly the certificates of RFC 5280 are accepted as structures", "statement": "An ASN.1 item is read as a certificate exactly when it has the structure that RFC 5280 prescribes, including optional fields and multi-valued names.", "quantifier": "for every ASN.1 item", "why_tests_cant": "Structures nest without bound and optional fields combine; tests use a few certificates from common tools, which lack the rare fields.", "anchors": ["src/crypto/x509.rs:86-493"]}
{"id": "C100", "title": "A server certificate is accepted only with the authority's signature over the received bytes", "statement": "The check of a server certificate against a certificate authority accepts only if both are certificates and the authority's key verifies the signature over exactly the bytes of the signed part as they were received, with the algorithm named in the certificate; it accepts every certificate so signed; it never panics. A handshake that completes with a certificate authority configured has seen such a certificate, and its key has signed the handshake.", "quantifier": "for all byte strings as authority and server certificate, every signature primitive, and every behaviour of the transport", "why_tests_cant": "A test shows that one forged certificate is refused, not that none is accepted, nor that the signature covers exactly the received bytes for every encoding.", "anchors": ["src/tls/protocol/client.rs:257-303", "src/crypto/x509.rs:140-165", "src/formats/asn1/reader.rs"]}
{"id": "C101", "title": "An accepted server certificate is within its validity period and issued by the authority", "statement": "A server certificate that is accepted with a certificate authority is valid at the time of the check and names the authority as its issuer.", "quantifier": "for all pairs of certificates and every time", "why_tests_cant": "Whether a date or a name is compared at all cannot be seen from certificates that are valid.", "anchors": ["src/tls/protocol/client.rs:257-303"]}
{"id": "C102", "title": "A generated libp2p certificate proves the host's identity", "statement": "The certificate generated for a host key and a certificate key is one that a libp2p peer accepts: it parses, carries the certificate key, is signed with it, contains exactly one libp2p extension holding the host's public key and the host's signature over 'libp2p-tls-handshake:' followed by the key information as it stands in the certificate; and the TLS client here accepts it as self-signed.", "quantifier": "for all pairs of Ed25519 keys and all validity times", "why_tests_cant": "The lengths and the nesting depend on the values; a test sees one key pair, and a wrong signed prefix or a key information that differs from the one in the certificate is only noticed by another implementation.", "anchors": ["src/libp2p/tls.rs:57-199", "src/libp2p/peer_id.rs"]}
{"id": "C103", "title": "The certificate tool writes certificates that can be read and verified", "statement": "When both key files hold keys, the generate command writes a PEM file which the print command reads as a certificate with the subject's key and the fields that were set, and which verifies against any certificate with the signer's key.", "quantifier": "for all key files, keys and signing functions", "why_tests_cant": "Goes through PEM, ASN.1 and X.509 in both directions, for keys of every size.", "anchors": ["src/bin/x509.rs:83-255", "src/crypto/pem.rs", "src/crypto/x509.rs"]}
{"id": "C104", "title": "What a chat client is sent was said", "statement": "What the chat server has sent to a client is always the beginning of a sequence of whole announcements; for every other client, those that name it repeat a contiguous part of what was read from it, in its order, each once; when nothing is waiting to be sent the sequence is complete.", "quantifier": "for all numbers of clients, everything they send, in whatever pieces, and every interleaving of the server's tasks, including writes that take part of the data or fail", "why_tests_cant": "Tasks run in parallel; a test sees one interleaving of one conversation and cannot show that no announcement is ever duplicated, split, reordered or attributed to a queue it was not meant for.", "anchors": ["src/bin/chatserver.rs:28-127", "src/bin/chatserver.rs:140-227"]}
{"id": "C105", "title": "A connected chat client misses nothing", "statement": "Between two moments at which nothing is being passed on, a client that is connected at both is sent exactly what all clients said in between. A client that ends its side is sent all of its own words before the server closes, unless writing to it fails.", "quantifier": "for all conversations and every interleaving of the server's tasks", "why_tests_cant": "Losing an announcement needs a particular order of reading, listing, sending and closing in different tasks.", "anchors": ["src/bin/chatserver.rs:28-127", "src/bin/chatserver.rs:140-227"]}
{"id": "C106", "title": "All chat clients see the same order", "statement": "Between two moments at which nothing is being passed on, two clients that are connected all the time are sent the same bytes.", "quantifier": "for all conversations and every interleaving of the server's tasks", "why_tests_cant": "Different orders appear only when two broadcasts overlap in a particular way.", "anchors": ["src/bin/chatserver.rs:66-78"]}
{"id": "C107", "title": "A chat announcement is one line that names its sender", "statement": "Cut at the line ends, what a client has been sent is one line for each announcement, and the number at the start of a line is the number of the client whose words it shows, whatever the words are.", "quantifier": "for all bytes clients may send, all numbers of clients, and every interleaving", "why_tests_cant": "Forging a line needs the one character that is not escaped; no test covers every text.", "anchors": ["src/bin/chatserver.rs:87-107", "src/util/util.rs:70-94"]}
{"id": "C108", "title": "The words in a chat announcement can be recovered", "statement": "Two announcements of the same client for different texts are different.", "quantifier": "for all pairs of texts", "why_tests_cant": "Ambiguity shows only for particular pairs of texts.", "anchors": ["src/bin/chatserver.rs:87-107", "src/util/util.rs:70-94"]}
{"id": "C109", "title": "No chat client holds up another, and one that has gone is let go", "statement": "Whatever the other clients do, the task that has read something from a client can tell everybody and return to reading by itself. When a client has ended its side, the task that sends to it can, as long as the client takes what it is sent, by itself finish sending what was announced before and make the server forget the client.", "quantifier": "for all reachable states of the server", "why_tests_cant": "Deadlocks and leaks depend on the state of all tasks; a test visits few of those states.", "anchors": ["src/bin/chatserver.rs:66-127", "src/bin/chatserver.rs:157-227"]}
{"id": "C110", "title": "A wait on the simulated clock ends when its time has come, and not earlier", "statement": "When the clock shows at least the time a task waits for, and everybody who moved the clock has finished doing so, the waiting task is woken. It never ends its wait before that time.", "quantifier": "for all numbers of waiting tasks and of tasks that move the clock, and every interleaving", "why_tests_cant": "A lost wake-up needs the clock to move between two instructions of the waiting task; a test cannot place it there.", "anchors": ["src/sim/clock.rs:38-83"]}
{"id": "C111", "title": "The proxy passes on everything that arrives", "statement": "Unless the receiver stops taking data, it is sent exactly the bytes the sender sends, in order, whatever pieces they come in or are taken in, for every buffer size the options accept.", "quantifier": "for all byte strings, all ways to cut them, all buffer sizes", "why_tests_cant": "The ways to cut data at both ends are unbounded, and the failing size is the one nobody tries.", "anchors": ["src/bin/proxy.rs:58-94"]}
{"id": "C112", "title": "The proxy reports the end of data only when the sender ended it", "statement": "The receiver behind the proxy sees an orderly end of the stream only if the sender ended it in an orderly way.", "quantifier": "for all connections and ways to end", "why_tests_cant": "A broken connection has to be provoked at every point of the stream.", "anchors": ["src/bin/proxy.rs:58-94"]}
{"id": "C113", "title": "The downloader understands the peer whatever pieces its messages arrive in", "statement": "The messages that are handled are exactly those the received bytes consist of, one after the other, up to the first that is malformed or not complete; what stops the reader is determined by the bytes behind them and by how the connection ends.", "quantifier": "for all byte strings and all ways to cut them", "why_tests_cant": "Messages may be cut at every byte, and their contents are unbounded.", "anchors": ["src/bin/download.rs:204-308"]}
{"id": "C114", "title": "The downloader notices when the peer closes the connection", "statement": "When the peer closes the connection, wherever in the stream that is, reading ends with an error.", "quantifier": "for all byte strings after which the connection is closed", "why_tests_cant": "A read that never returns does not fail a test, and only particular places are affected.", "anchors": ["src/bin/download.rs:206-231"]}
{"id": "C115", "title": "The downloader announces itself before it asks, and asks once and only when allowed", "statement": "At any time the bytes sent after the handshake are the beginning of these three messages: that it has no piece, that it is interested, and a request for the first 16 KiB. The decision to send the request is made only while the peer's last word about it was \"unchoke\".", "quantifier": "for all messages the peer may send, every interleaving of reader and writer, sending that fails anywhere", "why_tests_cant": "The reader and the writer interleave in unboundedly many ways.", "anchors": ["src/bin/download.rs:342-432", "src/bin/download.rs:80-111"]}
{"id": "C116", "title": "The downloader never overlooks that it may ask", "statement": "When nothing happens any more until the peer does something, and nothing went wrong, the two announcements have been sent, and the request as well if the peer's last word about it was \"unchoke\".", "quantifier": "for all messages the peer may send, and every interleaving of reader and writer", "why_tests_cant": "A lost wake-up needs the message to arrive between two steps of the writer.", "anchors": ["src/bin/download.rs:342-432", "src/bin/download.rs:80-111"]}
{"id": "C117", "title": "The downloader ends when the connection does", "statement": "When receiving has failed and nothing happens any more, the program has come to its end.", "quantifier": "for all conversations, and every interleaving of reader and writer", "why_tests_cant": "A program that waits for ever does not fail a test; whether it does depends on the order of events.", "anchors": ["src/bin/download.rs:113-116", "src/bin/download.rs:310-327", "src/bin/download.rs:412-432", "src/bin/download.rs:530-536"]}
{"id": "C118", "title": "No peer makes the downloader panic", "statement": "The downloader does not panic, whatever the peer sends and whatever happens to the connection.", "quantifier": "for all messages, failures, and every interleaving of reader and writer", "why_tests_cant": "The panic needs a failure of sending followed by a message.", "anchors": ["src/bin/download.rs:80-121", "src/bin/download.rs:412-432"]}
{"id": "C119", "title": "The downloader exchanges messages only with peers that have the torrent", "statement": "It sends a handshake with the hash of the torrent, and goes on if and only if the peer's handshake is well-formed and names the same hash, in whatever pieces it arrives; otherwise it gives up.", "quantifier": "for all torrents and all bytes of the peer", "why_tests_cant": "A peer with another hash or a malformed handshake cut anywhere has to be imagined.", "anchors": ["src/bin/download.rs:158-189", "src/bin/download.rs:498-527"]}
{"id": "C120", "title": "Asking a peer for a block asks for exactly that block", "statement": "Given the text of an identifier, the bytes written to the peer are one message, which any decoder of the protocol reads as a want for exactly the block with this identifier; it is written in full before anything is read, nothing else is ever written whatever the peer sends, and nothing is written for a text that is no identifier.", "quantifier": "for all identifiers, all ways the transport takes the bytes, all bytes the peer sends", "why_tests_cant": "Identifiers and the peer's bytes are unbounded, and the claim is about all decoders.", "anchors": ["src/ipfs/bitswap/handler.rs:26-55"]}
{"id": "C121", "title": "What is shown of a received block is what the block contains", "statement": "Each identifier shown is the hash of the data of a block that arrived, and each directory shown is the one in that data, in the order of arrival, however the incoming bytes are cut.", "quantifier": "for all byte strings a peer may send, all ways to cut them, all hash functions in the place of SHA2-256 and BLAKE2b-256", "why_tests_cant": "The messages, the blocks in them and the places they can be cut at are unbounded.", "anchors": ["src/ipfs/bitswap/handler.rs:59-122", "src/ipfs/bitswap/block.rs:23-55"]}
{"id": "C122", "title": "Only the block that was asked for is shown", "statement": "When a block has been asked for, no other block is shown.", "quantifier": "for all identifiers and all byte strings a peer may send", "why_tests_cant": "A test would have to imagine a peer that answers with something else.", "anchors": ["src/ipfs/bitswap/handler.rs:26-55", "src/ipfs/bitswap/handler.rs:88-119"]}
{"id": "C123", "title": "The stream is shut down when the handler is done", "statement": "When the handler ends, it has flushed the stream and shut it down, provided the transport does both.", "quantifier": "for all byte strings a peer may send", "why_tests_cant": "Each of the ways out of the handler has to be provoked by the peer.", "anchors": ["src/ipfs/bitswap/handler.rs:59-127"]}
{"id": "C124", "title": "Every block with a supported hash is shown", "statement": "If all messages of the peer can be decoded and all blocks in them use a supported hash function, all blocks are shown.", "quantifier": "for all sequences of messages and blocks", "why_tests_cant": "The kinds and orders of blocks are unbounded.", "anchors": ["src/ipfs/bitswap/handler.rs:88-119"]}
{"id": "C125", "title": "A peer that asks for identification gets it", "statement": "What the identify handler writes is read by the identify client as the versions, the public key of the node, the addresses and the protocols that were put in, however the transport cuts it on either side; a message that does not arrive in full is not shown.", "quantifier": "for all keys, all ways to write and to cut, all byte strings a peer may send", "why_tests_cant": "The ways the bytes can be cut and the bytes of other peers are unbounded.", "anchors": ["src/ipfs/identify.rs:14-57", "src/bin/ipfs.rs:328-343"]}
{"id": "C126", "title": "No peer makes the bitswap handler panic", "statement": "Whatever arrives on the stream, the handler does not panic.", "quantifier": "for all byte strings a peer may send, and all failures of the transport", "why_tests_cant": "The inputs are unbounded.", "anchors": ["src/ipfs/bitswap/handler.rs:20-127"]}
{"id": "C127", "title": "A request finds the service registered under its name", "statement": "A request finds a service exactly if it is the name of a registered service followed by a newline, and then the one registered first under this name; the protocols a node advertises are exactly those it finds a service for.", "quantifier": "for all sequences of registrations and all requests", "why_tests_cant": "Registrations and requests are unbounded.", "anchors": ["src/ipfs/node.rs:22-56", "src/bin/ipfs.rs:168-171", "src/ipfs/identify.rs:35-48"]}
{"id": "C128", "title": "Nobody sleeps through what they wait for", "statement": "While a multiplexed connection works, any number of tasks can wait for incoming streams and for data on different streams: whenever one of these polls would be answered, the task is awake, or the transport has promised to wake it and has news. Streams may be dropped at any time; the other side is assumed to open each number once.", "quantifier": "for all transports, all numbers of tasks, all interleavings of polls, wake-ups and dropped streams", "why_tests_cant": "A lost wake-up shows only under some interleavings, and there are unboundedly many.", "anchors": ["src/libp2p/mplex/stream.rs:33-104", "src/libp2p/mplex/stream.rs:150-271", "src/libp2p/mplex/stream.rs:389-394", "src/libp2p/mplex/frame.rs:146-203"]}
{"id": "C129", "title": "When the connection fails, everybody who waits is told", "statement": "A task that waits for an incoming stream or data is woken when the connection has failed.", "quantifier": "for all transports, all numbers of tasks, all interleavings", "why_tests_cant": "The failure has to meet the right set of waiting tasks.", "anchors": ["src/libp2p/mplex/stream.rs:150-228", "src/libp2p/mplex/stream.rs:258-260"]}
{"id": "C130", "title": "Giving up waiting does not harm others", "statement": "A task that stops waiting for data (a timeout, a select) does not leave another task asleep when data for it arrives.", "quantifier": "for all transports, all numbers of tasks, all interleavings", "why_tests_cant": "A test would have to drop one future at the right moment while another waits.", "anchors": ["src/libp2p/mplex/stream.rs:150-228"]}
{"id": "C131", "title": "Whoever waits to send is woken", "statement": "A task that waits to write, flush, shut down or open a stream is woken when the transport can take more.", "quantifier": "for all transports, all numbers of tasks, all interleavings", "why_tests_cant": "It needs several tasks waiting at the same moment on a slow transport.", "anchors": ["src/libp2p/mplex/stream.rs:306-330", "src/libp2p/mplex/stream.rs:423-490", "src/libp2p/mplex/frame.rs:205-224"]}
{"id": "C132", "title": "Two multiplexers, end to end: what is read is what was written", "statement": "When two multiplexed connections are joined by a transport that keeps the order of the bytes, what has been read from a stream at one end is at every moment the beginning of what has been written to it at the other end, and every accepted stream was opened at the other end, once.", "quantifier": "for all sequences of polls at both ends, all sizes and moments of delivery, all partial or refused writes, errors and early ends of the transport, any number of streams opened by either side", "why_tests_cant": "The interleavings of two users, two connections and the pieces the transport makes are unbounded, and a mix-up of streams needs a particular one.", "anchors": ["src/libp2p/mplex/stream.rs:123-284", "src/libp2p/mplex/stream.rs:384-506", "src/libp2p/mplex/frame.rs:79-270"]}
{"id": "C133", "title": "Two multiplexers, end to end: everything arrives", "statement": "When one end has handed all its bytes to the transport, the transport has delivered them, and at the other end accepting and reading every stream have to wait (no connect is under way, no poll has failed), then every stream opened by the first end has been accepted and everything written to each stream has been read.", "quantifier": "for all sequences of polls at both ends, all behaviours of the transport, any number of streams", "why_tests_cant": "Data left behind in a buffer shows only after particular sequences of partial frames and reads.", "anchors": ["src/libp2p/mplex/stream.rs:123-284", "src/libp2p/mplex/stream.rs:384-506", "src/libp2p/mplex/frame.rs:79-270"]}
{"id": "C134", "title": "QUIC Initial keys are those of the standard", "statement": "The keys, initialisation vectors and header protection keys derived from a connection identifier are, for both directions, the Initial keys RFC 9001 defines, and they are derived whenever they exist; they have 16, 12 and 16 bytes.", "quantifier": "for all connection identifiers and all hash functions with HKDF", "why_tests_cant": "A test vector shows one identifier; both ends of this code would agree on wrong keys, too.", "anchors": ["src/quic/wire.rs:25-86", "src/tls/helpers.rs:138-160"]}
{"id": "C135", "title": "A QUIC endpoint understands the first packet of every client", "statement": "Whatever packets an endpoint has received before, when the first packet of a client of this library arrives, the endpoint reports exactly the client's ClientHello (with its random bytes, key share, protocol and connection identifier) and then has a connection under the client's identifier with the keys of the identifier the client chose for it, other connections being untouched; and the client understands what is sent back to it under those keys.", "quantifier": "for all earlier packets, connection identifiers, keys and random bytes, and every correct cipher", "why_tests_cant": "Which earlier packets get in the way cannot be found by trying out packets.", "anchors": ["src/bin/quic_test.rs:241-264", "src/bin/quic_test.rs:415-440", "src/bin/quic_test.rs:507-655", "src/bin/quic_test.rs:701-828"]}
{"id": "C136", "title": "No handshake data crashes a QUIC endpoint", "statement": "Whatever bytes the CRYPTO frames of a received packet carry, the endpoint reports messages or an error, and does not panic.", "quantifier": "for all sequences of frames with any contents", "why_tests_cant": "The input space is all byte strings.", "anchors": ["src/bin/quic_test.rs:241-319", "src/bin/quic_test.rs:874-901"]}
{"id": "C137", "title": "A handshake message spread over QUIC packets is put together", "statement": "When the bytes of a handshake message arrive in several packets of a connection, each at its place in the stream, the message has been reported when all have arrived.", "quantifier": "for all messages and all ways to cut them", "why_tests_cant": "The number of ways to cut and place the pieces is unbounded.", "anchors": ["src/bin/quic_test.rs:241-319", "src/bin/quic_test.rs:863-901"]}
{"id": "C138", "title": "TLS keys determine the handshake they come from", "statement": "If two connections, of any clients and servers, have a key in common, then exactly the same messages were exchanged in their handshakes and they have the same shared secret and cipher suite; in particular clients that chose different random bytes share no key. The keys of a connection for handshake and data, from client and server, are four different keys.", "quantifier": "for all pairs of completed handshakes in which no value of the key schedule is a collision of the hash function", "why_tests_cant": "A test compares the keys of a few handshakes; that no two handshakes in the world can be confused is a statement about all pairs.", "anchors": ["src/tls/helpers.rs:51-123", "src/tls/helpers.rs:138-167", "src/tls/protocol/client.rs:99-170"]}
{"id": "C139", "title": "The deterministic random numbers have the full period", "statement": "Whatever the seed, each 32-bit number comes exactly once in 2^32 calls; two numbers agree in their last k bits exactly if a multiple of 2^k calls lies between them (so the numbers repeat after 2^32 calls and not before, and are odd and even in turn); a longer run from the same seed begins with a shorter one.", "quantifier": "for all seeds and all numbers of calls", "why_tests_cant": "A run through the whole period takes 2^32 steps for each of 2^32 seeds.", "anchors": ["src/util/detrand.rs:8-26"]}
{"id": "C140", "title": "The printout of an ASN.1 structure determines the structure", "statement": "Two structures that the printer (not told to cut off long byte strings) shows alike are the same structure, up to the byte ranges, and with the ranges shown altogether. Each item takes exactly one line, whatever text it contains.", "quantifier": "for all structures of any depth and size, with and without ranges and with any table of names that fit on a line", "why_tests_cant": "The drawing of the tree, the texts and the numbers could be confused with each other in unboundedly many ways; samples show only that some structures look different.", "anchors": ["src/formats/asn1/printer.rs:94-206", "src/formats/asn1/value.rs:33-43", "src/util/util.rs:70-94"]}
{"id": "C141", "title": "The hex dump shows every byte", "statement": "Different byte strings have different dumps, in the short form, in the form over several lines, and in the latter indented. In the form over several lines byte i stands in line i/16, which begins with the position i/16*16, at the column fixed by i mod 16, once in hexadecimal and once as a character, a dot unless it is printable ASCII.", "quantifier": "for all byte strings and positions", "why_tests_cant": "A test compares a few dumps with expected text; that none of the infinitely many byte strings is shown like another, or out of place, needs an argument.", "anchors": ["src/util/util.rs:102-157", "src/util/util.rs:159-173"]}
{"id": "C142", "title": "The echo server echoes", "statement": "What the server has written back to a client is the beginning of what it read from this client, and all of it whenever it waits for more or has seen the end. The numbers printed never show more sent than received or more received than was read; with all connections idle they are both the number of bytes read. No connection ever waits for another one.", "quantifier": "for all numbers of connections, all inputs, all ways in which the sockets split reads and writes, all failures, and all interleavings of the tasks", "why_tests_cant": "The interleavings of tasks and the points at which sockets split the data are unbounded in number and not under the control of a test.", "anchors": ["src/bin/server.rs:32-41", "src/bin/server.rs:57-106"]}
{"id": "C143", "title": "Converting between bases loses nothing", "statement": "If the multibase tool converts a text to a base, the result stands for the same bytes, is detected as that base, and converting it further gives what converting the original text would give. The conversion succeeds exactly if the base is listed and the text can be decoded. A text is detected as a base exactly if it starts with the code listed for it.", "quantifier": "for all texts, all names of bases, and chains of conversions of any length", "why_tests_cant": "Tests cover some values in some pairs of bases; the claim is about all byte strings in all 144 pairs and all chains.", "anchors": ["src/bin/multibase.rs:52-78", "src/ipfs/types/multibase.rs:115-206"]}
{"id": "C144", "title": "A successful shutdown has told the peer", "statement": "If a shutdown of a TLS connection has answered that it is done, then everything that writes accepted has been passed to the transport, in order, followed by one authenticated close notification and nothing else; nothing waits to be sent, and the transport itself has been shut down.", "quantifier": "for all histories of calls before and after the shutdown and all behaviours of the transport, failures included", "why_tests_cant": "Shutdown may be interrupted at every point by a transport that is not ready, and called again; tests run a few of these interruptions.", "anchors": ["src/tls/protocol/client.rs:1101-1144", "src/tls/protocol/client.rs:948-965"]}
{"id": "C145", "title": "Two ends of a TLS connection agree on the stream", "statement": "When one end has written without empty writes and shut down successfully, and the transport brings what it sent and then ends, the reads of the other end never fail, give a beginning of what was accepted by the writes, and when they report the end or have been repeated often enough, have given exactly all of it. And at all times, also without a shutdown and with failing transports, what has been read is a beginning of what the writes accepted.", "quantifier": "for all histories of calls at both ends, all behaviours of the sender's transport, all ways in which the bytes are cut into pieces and delayed, all sizes of read buffers", "why_tests_cant": "The cuts of the byte stream and the interleavings of reads with arrivals are unbounded; tests use a few.", "anchors": ["src/tls/protocol/client.rs:967-1144", "src/tls/protocol/stream.rs:44-313"]}
{"id": "C146", "title": "The text of a network address determines the address", "statement": "Two multiaddresses that are displayed alike are the same, whatever protocols, unknown protocols and undecodable bytes they are made of; so are two addresses decoded from bytes received from peers.", "quantifier": "for all sequences of address components of any length and all byte strings", "why_tests_cant": "That no two of infinitely many sequences run together to the same text cannot be seen from samples.", "anchors": ["src/libp2p/multiaddr.rs:156-168", "src/libp2p/multiaddr.rs:171-205"]}
{"id": "C147", "title": "Addresses are displayed in the standard notation", "statement": "A multiaddress of known protocols is displayed as the multiaddr specification writes it (/ip4/..., /ip6/..., /tcp/..., /udp/..., /quic), so that other programs can read it.", "quantifier": "for all addresses of known protocols", "why_tests_cant": "A test that compares with the text the author had in mind repeats the author's error; the claim compares with the specification for all addresses.", "anchors": ["src/libp2p/multiaddr.rs:156-168"]}
{"id": "C148", "title": "Nobody between two ends of a TLS connection can do more than cut it off", "statement": "Somebody on the network who does not have the keys may make up, change, repeat, reorder and leave out what is on the way between two ends of an established TLS connection. Whatever they do, the bytes that one end reads are a beginning of the bytes that the other end wrote; and if a read reports the end of the stream, the other end has shut down and everything it wrote has been read.", "quantifier": "for all sequences of calls at both ends, all behaviours of the transports and all bytes that arrive, given only that a record that authenticates under a number is the one the peer sealed with that number", "why_tests_cant": "The attacker's choices are arbitrary byte strings at every step; tests try a few damaged records. That order, repetition and truncation are all covered follows only from an invariant over the record numbers of both ends.", "anchors": ["src/tls/protocol/client.rs:967-1049", "src/tls/protocol/client.rs:1053-1144", "src/tls/protocol/stream.rs:44-145"]}
{"id": "C149", "title": "Multiplexed streams over TLS cannot be tampered with", "statement": "Two multiplexers that use the two ends of an established TLS connection as their transport: whatever somebody on the network without the keys does, and however the streams are used, what has been read from a stream at one side is always a beginning of what has been written to it at the other, and every stream that is accepted was opened by the other side, once.", "quantifier": "for all sequences of polls of both multiplexers, of calls they make to their connections, and of bytes that arrive from the network, interleaved in any way", "why_tests_cant": "It is a claim about four state machines and an attacker running concurrently; the number of interleavings and byte strings is unbounded.", "anchors": ["src/libp2p/mplex/stream.rs:1-561", "src/libp2p/mplex/frame.rs:1-317", "src/tls/protocol/client.rs:900-1144", "src/bin/ipfs.rs:204-226"]}
{"id": "C150", "title": "The TLS client program talks only to a server that its authority has certified", "statement": "The TLS client program accepts exactly the right combinations of options: an authority's certificate or none, a client certificate and key together or neither, each file being PEM text with the right label. It sends its request, or prints anything, only if an authority's certificate was given and the server has shown a certificate that the authority's key signed and has proved with that certificate's key that this very handshake is its own.", "quantifier": "for all options, file contents, server behaviours, byte strings that arrive, and numbers of steps of the program", "why_tests_cant": "What a server or somebody on the way may send is unbounded, and the claim is that in none of these cases does the program get as far as its request; a test shows single servers being refused.", "anchors": ["src/bin/tls_client.rs:43-104", "src/bin/tls_client.rs:176-198", "src/tls/protocol/client.rs:257-330", "src/tls/protocol/client.rs:352-845", "src/crypto/pem.rs:1-120"]}
{"id": "C151", "title": "What the TLS client program shows is what the server has sent", "statement": "Once the TLS client program waits for an answer, the whole HTTP request and nothing else has been handed to the network in protected records. What it then shows is a beginning of what the server wrote, whatever somebody without the keys does to the bytes on the way; and if it reports the end of the stream (and the server made no empty writes), the server has shut its end down and all that it wrote has been shown.", "quantifier": "for all options, files, servers, sequences of calls at the server's end, behaviours of both transports, bytes that arrive, and numbers of steps, given that a record that authenticates under a number is the one the peer sealed with that number", "why_tests_cant": "It is about all runs of the program, the handshake, the record layer at both ends and an attacker together.", "anchors": ["src/bin/tls_client.rs:154-198", "src/tls/protocol/client.rs:900-1144", "src/tls/protocol/stream.rs:90-150"]}
{"id": "C152", "title": "The server can choose only what the client has offered", "statement": "If a TLS handshake yields a connection, then everything the server chose was on offer in the client's hello: the protocol version, the cipher suite, the key share's group, the signature algorithm, no compression, the session id that was sent, and an application protocol, if any, out of those asked for.", "quantifier": "for all servers, byte strings that arrive, client configurations, protocol names and numbers of polls", "why_tests_cant": "A server can answer with any values in any of seven places; only a proof over all flights tells which are checked.", "anchors": ["src/tls/protocol/client.rs:99-177", "src/tls/protocol/client.rs:558-845"]}
{"id": "C153", "title": "The listings of a torrent's files and trackers can be relied on", "statement": "If the program that shows torrent files lists the same files, or the same trackers, for two torrents, then they have the same files, or the same groups of trackers.", "quantifier": "for all pairs of torrent files", "why_tests_cant": "It compares the output for all pairs of torrents; a collision needs particular characters in a name.", "anchors": ["src/bin/view.rs:80-101", "src/bittorrent/torrent.rs:101-136"]}
{"id": "C154", "title": "The printout of a bencoded value shows the value", "statement": "If the program that shows torrent files prints the same for two files of bencoded values, then they hold the same value.", "quantifier": "for all pairs of files, with values nested to any depth", "why_tests_cant": "It compares the printouts of all pairs of values of any shape and depth.", "anchors": ["src/formats/bencoding/mod.rs:162-208", "src/bin/view.rs:19-23"]}
{"id": "C155", "title": "The summary of a torrent is unambiguous", "statement": "What the program shows as the summary of a torrent determines its info hash, its name, whatever characters are in it, the numbers of tracker groups, trackers, pieces and files, the piece length and the total length; what it shows as the hash determines the info hash.", "quantifier": "for all pairs of torrent files, including names with newlines or with lines that look like those of the summary", "why_tests_cant": "It compares the output for all pairs of torrents, and names are arbitrary texts chosen by strangers.", "anchors": ["src/bin/view.rs:103-133"]}
{"id": "C156", "title": "The program that shows torrent files succeeds exactly if there is something to show", "statement": "The program ends successfully exactly if it is given one of its commands and a readable file, which for the command raw must begin with a bencoded value and for the others be a torrent file whose pieces can hold its files. Otherwise nothing from a file has been shown, except that the command full shows the values in a file that is not a torrent.", "quantifier": "for all arguments and all contents of files", "why_tests_cant": "It is a claim about every file: scripts rely on the exit status.", "anchors": ["src/bin/view.rs:43-55", "src/bin/view.rs:70-198", "src/bittorrent/torrent.rs:138-193"]}
{"id": "C157", "title": "What a server sends does not crash a TLS client", "statement": "Whatever bytes arrive, in whatever pieces, and however the transport behaves, neither the handshake of a TLS client nor any call on the connection it yields panics.", "quantifier": "for all byte streams, all behaviours of the transport, all configurations, any number of polls, and all sequences of reads, writes, flushes and shutdowns", "why_tests_cant": "It ranges over everything a hostile server or anybody on the network may send; a test sends a few messages.", "anchors": ["src/tls/protocol/client.rs:420-1112", "src/tls/protocol/stream.rs:44-364", "src/tls/types/handshake.rs:50-110", "src/tls/helpers.rs:346-370"]}
{"id": "C158", "title": "The printout of a certificate shows whose it is", "statement": "If the certificate tool prints the same for two certificates, they name the same issuer and the same subject.", "quantifier": "for all pairs of certificates that can be read, whatever is in their names", "why_tests_cant": "It compares the printouts of all pairs of certificates; a collision needs particular characters in a name, and names are chosen by strangers.", "anchors": ["src/crypto/x509.rs:495-557", "src/bin/x509.rs:239-255"]}
{"id": "C159", "title": "What the printout of a certificate says about version, serial number and signature can be relied on", "statement": "If the certificate tool prints the same for two certificates, then, whatever is in their names and dates, they have the same version, serial number, signature algorithms and length of the signature; in particular no name can pretend to be these lines.", "quantifier": "for all pairs of certificates, including names and dates with newlines or with lines that look like those of the printout", "why_tests_cant": "It compares the printouts of all pairs of certificates.", "anchors": ["src/crypto/x509.rs:119-131", "src/crypto/x509.rs:340-390", "src/crypto/x509.rs:528-591", "src/formats/asn1/printer.rs:12-69", "src/util/util.rs:5-12"]}
{"id": "C160", "title": "A TLS client reaches every honest server", "statement": "If a server answers a client's hello with a legal flight that fits the key agreement and authenticates the server as the client's configuration asks, each message in a record of its own, and the transport delivers both directions in pieces of any sizes with pauses anywhere and never fails, then the handshake never fails and yields a connection within as many polls as the transport gives answers. The connection has the application keys of the key schedule, its record numbers are 0, and nothing the server sent behind the flight is lost.", "quantifier": "for all legal flights (with or without a certificate request), all ways of cutting both directions into pieces and pauses, all ChangeCipherSpec records in between, and all configurations with usable credentials", "why_tests_cant": "It is a liveness statement over every honest server and every schedule of the transport; a test runs one handshake over one schedule.", "anchors": ["src/tls/protocol/client.rs:130-940", "src/tls/protocol/stream.rs:44-364", "src/tls/helpers.rs:40-370"]}
{"id": "C161", "title": "A task that waits for a TLS connection is woken again", "statement": "Whenever a handshake, a read, a write, a flush or a shutdown of a TLS connection answers that the caller must wait, the task will be polled again: it has been woken already, or the transport has its waker for what it waits for. In particular an honest server is reached by a task that is polled only when it has been woken.", "quantifier": "for all states of the handshake and the connection, and all behaviours of the transport", "why_tests_cant": "A lost wake-up shows only for certain ways of cutting the data into pieces and certain moments; a test tries a few, and an executor under test often polls for other reasons.", "anchors": ["src/tls/protocol/client.rs:373-404", "src/tls/protocol/client.rs:963-1144", "src/tls/protocol/stream.rs:158-211", "src/tls/protocol/stream.rs:287-313"]}
{"id": "C162", "title": "A task that waits for a TLS connection does not spin", "statement": "While nothing arrives, a task that waits for a TLS connection is not polled: a poll that answers that the caller must wait has woken its own task at most once for every piece of data it has received, and not at all if it waits for sending.", "quantifier": "for all states of the handshake and the connection, and all behaviours of the transport", "why_tests_cant": "A busy loop gives the right answers; a test that compares results does not see it.", "anchors": ["src/tls/protocol/client.rs:967-1023", "src/tls/protocol/stream.rs:182-211"]}
{"id": "C163", "title": "The TLS client program shows the whole answer of an honest server", "statement": "If the options of the TLS client program are right and the address is reached, and the server answers the hello with an honest flight, then sends any data with session tickets anywhere between, the close alert, and the end of the TCP connection, then the program, after finitely many polls, has shown exactly that data, in order, and after it the report of the end, and has not failed; this holds however both directions are cut into pieces and whatever pauses there are.", "quantifier": "for all honest flights, all sequences of data records and session tickets, all contents, all ways of cutting both directions into pieces and pauses, all option combinations that are accepted", "why_tests_cant": "It is a statement about complete runs of a program over every schedule of the transport and every answer; a test sees one server's answer in one schedule.", "anchors": ["src/bin/tls_client.rs:150-185", "src/tls/protocol/client.rs:130-1144", "src/tls/protocol/stream.rs:44-364"]}
{"id": "C164", "title": "A consumer joined with a producer gets its result although nobody wakes it", "statement": "In the program that joins a counting producer and a waiting consumer in one task, whatever the goal of the producer and whatever count (not zero, not above the goal) the consumer waits for: the producer prints 1, 2, 3, ... up to the goal without leaving out or repeating a number; the consumer prints exactly one result, in the first poll in which the count has reached what it waits for, and the result is the count of that moment, which is exactly what it waits for if no poll finds the timer over more than once; and the program has ended exactly when the timer has been over as often as the goal says.", "quantifier": "for all goals, all awaited counts, all sequences of polls of the task and of the timer's answers", "why_tests_cant": "The consumer's waker is stored and never used, so that whether it is polled again depends on the joint polling under every schedule; a test sees the schedule of an idle machine.", "anchors": ["src/bin/manual_futures.rs:19-80"]}
{"id": "C165", "title": "Waiting on two sockets loses nothing", "statement": "The program that waits for datagrams on two sockets shows, for each socket, what arrived there, each datagram whole, once, in order, although the wait on the other socket is dropped each time; and it waits only if nothing is there.", "quantifier": "for all sequences of arrivals, all datagrams, all interleavings with the rounds of the loop, both ways of waiting", "why_tests_cant": "Loss would need a particular interleaving of arrivals with dropped futures; a test sends a few datagrams.", "anchors": ["src/bin/select_test.rs:12-34", "src/bin/select_test.rs:38-169"]}
{"id": "C166", "title": "Neither of two sockets is starved", "statement": "In the program that waits for datagrams on two sockets with its own combinator, everything that arrives at either socket is shown after finitely many rounds, whatever arrives at the other.", "quantifier": "for all endless runs in which the loop goes round again and again", "why_tests_cant": "Starvation is a property of endless runs; a test is finite.", "anchors": ["src/bin/select_test.rs:22-34", "src/bin/select_test.rs:42-94"]}
{"id": "C167", "title": "The socket experiments report what they receive", "statement": "Whatever a peer sends in whatever pieces, the sizes that the socket tool and the I/O experiment print add up to the number of bytes sent, the data shown by the I/O experiment is the data sent, and the end that is printed (orderly or error) is the end that there was.", "quantifier": "for all data, all ways of cutting it, all buffer sizes, all endings", "why_tests_cant": "The statement is about all ways of cutting and all sizes; a test fixes one.", "anchors": ["src/bin/sock.rs:60-97", "src/bin/iotest.rs:55-93"]}
{"id": "C168", "title": "The socket tool follows its mode", "statement": "The socket tool started in the mode that echoes sends back everything that it receives.", "quantifier": "for all data, all ways of cutting it, all buffer sizes", "why_tests_cant": "No test of a single mode shows that the mode makes no difference.", "anchors": ["src/bin/sock.rs:17-34", "src/bin/sock.rs:60-97"]}
{"id": "C169", "title": "The greetings of the socket experiments arrive whole", "statement": "A peer that takes everything in the end, in whatever pieces, gets the whole greeting of the I/O experiment, and the whole message of the client experiment if that reports success.", "quantifier": "for all ways in which the transport takes the data", "why_tests_cant": "On an idle loopback connection the whole message is always taken at once; a test never sees a part taken.", "anchors": ["src/bin/iotest.rs:95-108", "src/bin/client.rs:7-13"]}
{"id": "C170", "title": "Texts of two threads are all printed, each thread's in order, and the program ends", "statement": "In the program with two sending threads and one channel, whatever texts the threads send and however the three threads are scheduled, what is printed is made of the texts of both threads, each in its order; no send fails; printing is over only after everything was printed; and as long as it is not over, some thread can go on, with less left to do after each operation.", "quantifier": "for all lists of texts, all schedules of the three threads", "why_tests_cant": "The schedules are without number; a test sees those that one machine happens to choose.", "anchors": ["src/bin/threads.rs:12-46"]}
{"id": "C171", "title": "The command-line tool's checks cannot fail and it does not crash", "statement": "The check of variable-length numbers reports every number drawn as good, whatever is drawn; for every text the identifier command reports an error or prints an identifier equal to the one given, which printed again is the same; the message command shows exactly the field and number written, for every 64-bit number; and no arguments make the tool crash.", "quantifier": "for all draws, all argument lists, all texts, all numbers, all files", "why_tests_cant": "The tool itself draws a million numbers at random, which is a sample of 2^64.", "anchors": ["src/bin/cli.rs:16-130", "src/formats/protobuf/varint.rs:1-120", "src/ipfs/types/cid.rs:149-264"]}
{"id": "C172", "title": "A TLS connection to a peer proves which host the peer is", "statement": "With the setting for self-signed certificates, which the IPFS program uses for its connection to another host, the TLS handshake completes only if the certificate that the server shows proves the libp2p identity of a host: it is self-signed and has one libp2p extension whose host key has signed the key of the certificate.", "quantifier": "for all servers, all bytes they send, all ways in which these arrive, all certificates, whatever the cryptographic primitives answer", "why_tests_cant": "The statement is about every certificate that could be accepted; a test against an honest host only ever shows certificates with the extension.", "anchors": ["src/bin/ipfs.rs:175-205", "src/tls/protocol/client.rs:79", "src/tls/protocol/client.rs:870-930"]}
{"id": "C173", "title": "The IPFS program talks TLS after a negotiation in which nothing is lost and nothing leaks", "statement": "If the IPFS program gets its TLS connection to another host, then that host has said over the socket the header of the negotiation, a whole list of protocol names and the name of TLS; and every byte behind that went into the TLS handshake, which authenticated the server as configured. Whatever the host says, the program has sent in the clear at most the header, the request for the list and the name of TLS, in this order. And with a host that negotiates and shakes hands as it should, over a socket that delivers in any pieces, the program does get its connection.", "quantifier": "for all byte streams from the host, all ways in which they are cut in pieces and delayed, all ways in which the socket takes what is written, all lists of protocols, all cryptographic primitives (for the last sentence: that work)", "why_tests_cant": "The negotiation and TLS are read by different code from the same socket: whether a byte is lost or read twice between them depends on where the pieces end, and there is no bound on the ways to cut the stream.", "anchors": ["src/bin/ipfs.rs:185-205", "src/libp2p/multistream.rs", "src/libp2p/io.rs", "src/tls/protocol/client.rs:79"]}
{"id": "C174", "title": "Nobody on the network can take part in the negotiation that runs over TLS", "statement": "When the IPFS program has negotiated a protocol over its TLS connection, then the other end of that connection has itself written, before anything else, the header of the negotiation, a whole list of protocols and the name of the protocol; and the names that the program prints are exactly those in that list. What the program itself says there is the header, the request for the list and the name and version of the multiplexer, each with its length, and it counts bytes as taken or flushed only where the TLS connection did so. (The other end is assumed never to write an empty piece, which this TLS client takes for the end.)", "quantifier": "for all sequences of calls at the other end, all that somebody without the keys does with the bytes on the way, all ways in which they arrive and break off, all protocols and lists, all ciphers for which nobody without the key makes records", "why_tests_cant": "It is about everything an attacker on the network may do, in every state of the negotiation; and whether the negotiation code treats an early end as the end of the list depends on how TLS reports ends and errors.", "anchors": ["src/bin/ipfs.rs:207-223", "src/libp2p/multistream.rs", "src/tls/protocol/client.rs:967-1049", "src/tls/error.rs:41-49"]}
{"id": "C175", "title": "Two nodes of this program agree about the protocol of a stream", "statement": "When one node opens a stream for a protocol and another node accepts it, over a connection that delivers everything, then both come to the same result and neither waits for the other for ever: if the acceptor offers the protocol, the opener is told that it is accepted and the acceptor runs exactly this service; if not, the opener is told that it is not supported and the acceptor waits for the next request.", "quantifier": "for all sets of services, all protocol names (but the word for \"no\" itself), all ways in which either direction cuts and delays the bytes and takes what is written", "why_tests_cant": "Both sides run at the same time and each waits for bytes of the other; a test fixes one interleaving, one way of cutting the bytes and one protocol.", "anchors": ["src/bin/ipfs.rs:75-110", "src/bin/ipfs.rs:271-300", "src/libp2p/multistream.rs"]}
{"id": "C176", "title": "UnixFS records are read exactly as their schema says", "statement": "A byte string is accepted as a UnixFS record exactly if it is a well-formed protobuf message with one type out of the six defined ones, at most one each of data, file size, hash type, fanout, mode and modification time, each of the right wire type and in range, and any number of block sizes; the record that is returned has exactly these values, block sizes in the order of the message. Fields may come in any order and unknown fields do not matter.", "quantifier": "for all byte strings shorter than 2^64 and all records, in both directions", "why_tests_cant": "Accepted and refused inputs are infinitely many: field orders, repetitions, unknown fields, overlong varints, wrong wire types. Round-trip tests only reach the inputs that the encoder itself would produce.", "anchors": ["src/ipfs/unixfs.rs", "src/formats/protobuf/protobuf.rs"]}
{"id": "C177", "title": "DAG nodes are read exactly as their schema says", "statement": "A byte string is accepted as a DAG node exactly if it is a well-formed protobuf message with at most one data field and any number of links, each of which is a message with exactly one field holding a well-formed content identifier, at most one name in UTF-8 and at most one size; the returned node has exactly these links in order and this data.", "quantifier": "for all byte strings shorter than 2^64 and all nodes, in both directions", "why_tests_cant": "Round-trip tests only reach inputs in the canonical order; other writers put links before data or leave parts out, and an attacker sends anything.", "anchors": ["src/ipfs/dagpb.rs", "src/ipfs/types/cid.rs", "src/formats/protobuf/protobuf.rs"]}
{"id": "C178", "title": "A received Bitswap message is read with everything its schema says", "statement": "Whatever a peer sends as a Bitswap message is either refused or read with all that the published schema (version 1.2.0) gives it: the list of wanted blocks with their options, the blocks, the announcements which blocks the peer has or does not have, and the number of bytes still to come.", "quantifier": "for all byte strings shorter than 2^64", "why_tests_cant": "A test message has the fields that its author thought of, and the encoder of the program never writes the others.", "anchors": ["src/ipfs/bitswap/message.rs:40-271"]}
{"id": "C179", "title": "Identify messages are read exactly as their schema says", "statement": "A byte string is accepted as an Identify message exactly if it is a well-formed protobuf message that has protocol version, agent version, public key and observed address exactly once and the signed record at most once, texts in UTF-8 and the key as a message with a known type and its bytes; the returned information has exactly what the message says, addresses and protocols in order.", "quantifier": "for all byte strings shorter than 2^64 and all values, in both directions", "why_tests_cant": "The message comes from an unauthenticated peer; tests cover a handful of well-formed messages.", "anchors": ["src/libp2p/identify.rs:29-83", "src/libp2p/peer_id.rs:42-61"]}
{"id": "C180", "title": "The crypto module is never asked for something of the wrong length", "statement": "The crypto module refuses keys, nonces and secrets of the wrong length, and the library for header protection panics on them. Neither ever happens in a connection: whatever a server and the network send to the TLS client, before and after the handshake and whatever its user then does, and whatever datagrams arrive at the QUIC endpoint, every key, nonce and secret handed to the ciphers and to HKDF has exactly the length they demand (so it makes no difference what they would do with another), and the keys of a QUIC connection can be derived from every connection identifier. Given hash functions whose results have their proper length, everything the module derives has the length that was asked for.", "quantifier": "for all hash functions and ciphers, all servers, transports, configurations and calls, all sequences of datagrams, all connection identifiers; no bound on the length of the run", "why_tests_cant": "Lengths depend on the cipher suite and the hash the peer picks and flow through four levels of derivation; a test sees one suite and one run, and cannot show that an error branch is dead.", "anchors": ["src/crypto/aead.rs:18-132", "src/crypto/crypt.rs:15-124", "src/tls/helpers.rs:58-167", "src/tls/helpers.rs:220-309", "src/quic/wire.rs:25-88", "src/quic/encryption.rs:7-136"]}
{"id": "C181", "title": "Identifiers are equal exactly if they are copies of the same one", "statement": "Whatever a program does with the library's `Id`s (make, copy, drop, in any order) and wherever the allocator puts them: two that are alive are equal exactly if one can be traced back to the same `Id::default()` as the other; their order is a linear order that agrees with equality; they print alike exactly if they are equal; and none of these answers changes as long as both live, so that they can be the keys of maps. What they refer to is released exactly when the last copy goes. After that the next `Id` may print exactly as the old one did.", "quantifier": "for all sequences of making, copying and dropping, all behaviours of the allocator, all pairs of live identifiers; no bound on their number", "why_tests_cant": "Equality depends on where the allocator puts things and when it uses an address again; a test sees the addresses of one run.", "anchors": ["src/util/id.rs:5-45"]}
{"id": "C182", "title": "Decoding untrusted data takes a bounded amount of call stack", "statement": "There is a number of nested calls, a million at most, that is enough to decode any bytes as ASN.1 (certificates, in files or sent by a TLS server that has not yet shown who it is) and any bytes as bencode (torrent files): nobody can overflow the call stack with deeply nested data.", "quantifier": "for all byte sequences and all depths; no bound on either", "why_tests_cant": "Tests use data nested a few levels deep, which fits any stack; the claim is about the deepest data there is.", "anchors": ["src/formats/asn1/reader.rs:124-196", "src/formats/asn1/reader.rs:198-361", "src/formats/bencoding/mod.rs:316-398"]}
{"id": "C183", "title": "The positions in a parsed torrent take memory in proportion to the file", "statement": "Every value of a parsed bencode file carries the path by which it is reached. Together these paths take no more than a fixed number of bytes, a million at most, for each byte of the file.", "quantifier": "for all files, of any size and nesting, and their parsed values", "why_tests_cant": "Files in tests have short keys and short lists; the memory grows with the product of the two.", "anchors": ["src/formats/bencoding/mod.rs:38-49", "src/formats/bencoding/mod.rs:316-398", "src/formats/bencoding/mod.rs:410-413"]}
{"id": "C184", "title": "A TLS connection keeps a bounded number of bytes", "statement": "There is a number of bytes that no TLS connection exceeds with what it keeps between two calls (received and not yet decrypted, decrypted and not yet read, encrypted and not yet sent), whatever the server sends, however the transport delivers it and whatever the user reads and writes. In particular a client that goes on reading is not made to store more and more.", "quantifier": "for all connections, ciphers, transports that answer with at most 1024 bytes at a time, and histories of reads, writes, flushes and shutdowns of any length", "why_tests_cant": "How much is kept depends on how the sizes of records and of the transport's answers interact over a long time; a test with a few messages ends long before memory is short.", "anchors": ["src/tls/protocol/stream.rs:1", "src/tls/protocol/stream.rs:70-210", "src/tls/protocol/stream.rs:258-330", "src/tls/protocol/client.rs:905-1130"]}
{"id": "C185", "title": "A multiplexed connection keeps a bounded number of received bytes", "statement": "There is a number of bytes that no multiplexed connection exceeds with what it has received and keeps (bytes not yet taken apart into messages, and the message that waits for its reader), whatever the peer sends, however the transport delivers it and whatever the user accepts, reads and writes.", "quantifier": "for all transports that answer with at most 1024 bytes at a time, all bytes from the peer and all histories of operations of any length", "why_tests_cant": "Messages in tests are small and well-formed; the claim is about a peer that announces messages as large as it likes and does not finish them.", "anchors": ["src/libp2p/mplex/frame.rs:146-203", "src/libp2p/mplex/frame.rs:300-317", "src/libp2p/mplex/stream.rs:123-272"]}
{"id": "C186", "title": "The multibase test program prints correct tables and its check never fails", "statement": "For a file of numbers in hex, one per line, the test program prints for each line the number and an encoding in the chosen base that decodes to the number, and succeeds. The first line that is not hex ends it with the place and text of that line, after the rows before it. Its own check, that the encoding decodes to the number, never fails.", "quantifier": "for all files, all bases, any number of lines of any length", "why_tests_cant": "The program is itself a test and covers the numbers it is given; that it cannot fail for any number in any base is what it is meant to find out.", "anchors": ["src/bin/test_multibase.rs:12-80", "src/ipfs/types/multibase.rs:153-169", "src/ipfs/types/multibase.rs:211-263"]}
{"id": "C187", "title": "A tracker chosen by its number in the list is the one announced to", "statement": "If the torrent client lists the trackers of a torrent, and a number (counted from zero) whose tracker in that list has a valid URL is given to its announce command for the same torrent, then the client speaks to that tracker.", "quantifier": "for all torrents with any number of tracker groups and members, all numbers, all meanings of URLs and host names, and all datagrams that arrive", "why_tests_cant": "Test torrents have valid URLs only; the claim is about every list, whatever is in front of the tracker chosen.", "anchors": ["src/bin/torrent_client.rs:371-390", "src/bin/torrent_client.rs:957-972"]}
{"id": "C188", "title": "The answer shown for an announcement came from the tracker", "statement": "If the torrent client's announce command shows an answer, that answer is the content of a datagram that came from the address to which the requests were sent.", "quantifier": "for all trackers, all resolutions of their names, all random numbers, and all sequences of datagrams from any senders", "why_tests_cant": "A test has one tracker and one socket; the claim is about every datagram that anyone on the network may send to the client's port.", "anchors": ["src/bin/torrent_client.rs:98-150", "src/bin/torrent_client.rs:214-231", "src/bin/torrent_client.rs:233-282"]}
{"id": "C189", "title": "The torrent client keeps no more than the torrent and one message", "statement": "Whatever a peer sends to the torrent client and however it arrives: the blocks the client keeps have together no more bytes than it was going to ask for, and whenever it waits for more, the bytes received and not used yet are fewer than 2^32 + 3, the size of the longest message whose length can be stated; a peer can make it keep any part of such a message.", "quantifier": "for all torrents, all bytes from the peer cut in any way, and all histories of the transfer", "why_tests_cant": "Tests send a few small messages; the claim is about the most that any peer can make the client store.", "anchors": ["src/bin/torrent_client.rs:469-491", "src/bin/torrent_client.rs:602-614", "src/bin/torrent_client.rs:755-812"]}
{"id": "C190", "title": "The chat server keeps a bounded number of bytes for each client", "statement": "There is a number of bytes that the chat server never exceeds with what waits to be sent to one client, whatever the clients say and however slowly they read.", "quantifier": "for all numbers of clients, all that they say, all interleavings of the tasks and all histories of any length", "why_tests_cant": "A test reads what it is sent; the claim is about clients that do not, for as long as they like.", "anchors": ["src/bin/chatserver.rs:66-74", "src/bin/chatserver.rs:130-149", "src/bin/chatserver.rs:181-227"]}
{"id": "C191", "title": "Negotiating a protocol takes a bounded number of bytes", "statement": "When the client asks for a protocol or for the list of protocols on a stream, it does not go on waiting once the peer has sent 65546 bytes in answer (a length of ten bytes, and the 65536 bytes which the list of protocols may have).", "quantifier": "for all protocols, all transports and all bytes from the peer, cut in any way", "why_tests_cant": "Peers in tests answer with a short message; the claim is about peers that announce answers as long as they like.", "anchors": ["src/libp2p/multistream.rs:22-72", "src/libp2p/io.rs:91-117"]}
{"id": "C192", "title": "The simulated transfer completes although packets are lost", "statement": "In the simulated transfer protocol, if again and again four packets in a row are not lost, a time comes from which on the receiver has been given the whole sequence, in order, and the sender knows that it has been.", "quantifier": "for all numbers of messages, all channel rates and latencies, and all random decisions of the channel about loss, duplication and delay", "why_tests_cant": "A run has one seed and one rate and may complete by luck; the claim is about every loss pattern that is not hopeless, over runs of any length.", "anchors": ["src/bin/netsim.rs:79-150", "src/bin/netsim.rs:219-253", "src/sim/network.rs:63-152"]}
{"id": "C193", "title": "The next event of an endpoint is the first thing that can happen to it", "statement": "After any history of its channels an endpoint of the simulated network reports a time of its next event, and an instant is before that time exactly if at that instant the endpoint may not send yet and none of the packets that are on the way to it has arrived.", "quantifier": "for all channel parameters, all random decisions and all histories of both channels", "why_tests_cant": "The times come from random latencies and from everything sent before; a test sees a few of them.", "anchors": ["src/sim/mod.rs:10-20", "src/sim/network.rs:59-61", "src/sim/network.rs:101-118", "src/sim/network.rs:181-199"]}
{"id": "C194", "title": "A client that was accepted is served until its own connection ends", "statement": "The servers (chat server, echo server, `sock`, `iotest`, the proxy, and the node for the streams others open) go on serving every connection they have taken until that connection itself ends, whatever happens with other clients, and every connection has a number of its own.", "quantifier": "for all programs and all histories of clients coming and going and of failures", "why_tests_cant": "A failure while another client comes, in the middle of everything, is hard to provoke, and a test has few clients.", "anchors": ["src/bin/chatserver.rs:238-249", "src/bin/sock.rs:108-120", "src/bin/iotest.rs:136-153", "src/bin/server.rs:61-106", "src/bin/proxy.rs:105-139", "src/bin/ipfs.rs:127-155"]}
{"id": "C195", "title": "The asn1 tool copies what it shows", "statement": "Given a file that holds a DER structure, as it is or as PEM text, `asn1 FILE --output COPY` shows the structure and writes a copy with exactly its bytes; a file that has something behind the structure is refused. No file makes the program panic, and a run that fails writes no file.", "quantifier": "for all files, all structures of any depth and length, all options", "why_tests_cant": "A test copies a few certificates and compares; it does not try every kind of element, and random bytes are hardly ever a nested structure.", "anchors": ["src/bin/asn1.rs:32-59", "src/formats/asn1/reader.rs:187-361", "src/formats/asn1/writer.rs:100-183"]}
{"id": "C196", "title": "The IPFS program looks at its command line first, runs the command, and ends", "statement": "`ipfs` rejects a command line that it does not accept before anything is sent to anybody. With a good one it connects, runs the command - `show CID` asks the host for that block, `identify` shows who the host is, `test` waits - and when the command has come to its end, so does the program. What is asked goes only to a host that has agreed to TLS, to the multiplexer and to the protocol of the command, in this order.", "quantifier": "for all command lines, all that a host may say at each level in any pieces, all ways in which the socket, the TLS connection and the stream take what is written", "why_tests_cant": "A test runs a command against a host that behaves; the rejection, the order of the layers and the end of the program depend on everything that can happen on three levels.", "anchors": ["src/bin/ipfs.rs:155-311", "src/bin/ipfs.rs:314-343", "src/ipfs/bitswap/handler.rs:129-141"]}
{"id": "C197", "title": "The certificate of a libp2p host is valid when it is made", "statement": "The certificate that `generate_certificate` makes for a host is valid, by the times that stand in it, from one hour before it was made until 3650 days after, both included, and at no other moment. The texts of the two times are in the form `YYYYMMDDHHMMSSZ` and stand for exactly these moments of the Gregorian calendar, across leap years and the ends of months, years and centuries.", "quantifier": "for all moments from 1970-01-01 01:00 UTC until 3650 days before the year 10000, and all pairs of keys", "why_tests_cant": "A test makes a certificate at the moment at which it runs; whether the calendar is right on the last of February, at the end of a century or in 2038 it does not see.", "anchors": ["src/libp2p/tls.rs:57-65", "src/libp2p/tls.rs:110-163"]}
{"id": "C198", "title": "The times in the certificate of a libp2p host are in the form that RFC 5280 demands", "statement": "In the certificate that `generate_certificate` makes, a time before the year 2050 is a `UTCTime` and a later one a `GeneralizedTime`, as RFC 5280 (4.1.2.5) demands of every certificate.", "quantifier": "for all moments from 1970-01-01 01:00 UTC until 3650 days before the year 10000, and all pairs of keys", "why_tests_cant": "A test that reads the certificate back with the same library accepts either form, at any moment.", "anchors": ["src/libp2p/tls.rs:123-139", "src/crypto/x509.rs:276-295"]}
{"id": "C199", "title": "A text in a base is read as the bytes it stands for, and the same bytes have one text in each base", "statement": "The multibase decoder accepts exactly the texts that stand for bytes in the base of their first character (for hexadecimal, base 32 and base 64 the bits of the digits in order, as many as make up whole bytes, digits counting up to the first `=` in the padded bases; for base 58 the number that the digits are, with one zero byte per leading first digit), and gives exactly these bytes. No two texts with the same base code are read as the same bytes, and no two texts with the same base code as the same content identifier, so that texts of identifiers can be compared.", "quantifier": "for all texts (any characters, any length), all byte strings and all twelve bases", "why_tests_cant": "The tests read texts that the encoder has written. Texts with bits left over in the last digit, with a digit or padding missing, or with something after the padding come from elsewhere, and there are unboundedly many.", "anchors": ["src/ipfs/types/multibase.rs:239-263", "src/ipfs/types/multibase.rs:304-334", "src/ipfs/types/multibase.rs:395-426", "src/ipfs/types/cid.rs:166-176"]}
{"id": "C200", "title": "A text is a content identifier exactly if the CID specification says so", "statement": "A text is read as a content identifier exactly if the decoding algorithm of the CID specification accepts it, and as the identifier that the algorithm gives: 46 characters that begin with `Qm` are a version-0 identifier in base 58 (SHA2-256, 32 bytes of digest); every other text must be a multibase text (any of the twelve bases) of the bytes of a version-1 identifier. No text is taken for the other version, and version 0 in multibase is refused whatever the base.", "quantifier": "for all texts shorter than 2^64 characters (any characters), all bases, codecs, hash codes and digests", "why_tests_cant": "The tests read the two identifiers of the documentation. A text on the border between the versions, such as version 0 in multibase, characters that take several bytes, or 46 characters with `Qm` that are not a multihash, is not among them.", "anchors": ["src/ipfs/types/cid.rs:162-190", "src/ipfs/types/cid.rs:217-264", "src/ipfs/types/multibase.rs:239-263"]}
{"id": "C201", "title": "The bytes of a multiaddress are read as the format says and written back unchanged", "statement": "Every byte string is read as exactly one address: component after component as the multiaddr format has them (the code of the protocol as a varint, then 4 octets, 16 octets, a port with the high byte first, or nothing), and from the first place at which no known component stands the remaining bytes as they are. Writing an address that was read never gives more bytes than were read, and gives the same bytes, parts that were not understood included, exactly if no code in front of such a part is written with more bytes than it needs.", "quantifier": "for all byte strings (any length, any mixture of known, unknown, cut off and over-long components)", "why_tests_cant": "There is no test of addresses. Sample addresses cannot show that no byte string is read differently, nor which of the endlessly many byte strings are altered by being read and written.", "anchors": ["src/libp2p/multiaddr.rs:13-31", "src/libp2p/multiaddr.rs:51-152", "src/libp2p/multiaddr.rs:174-195"]}
{"id": "C202", "title": "A refusal by the TLS server is reported with the reason that the server gave", "statement": "If the server answers the client's hello with an alert, or breaks off its flight at any point with a protected alert, connecting waits until the alert has arrived and then fails with an error that names this alert, whatever pieces and pauses it arrives in; the names tell all the alerts of RFC 8446 apart, from each other and from codes that RFC 8446 does not have (all of which are named Unknown). If the alert comes on an established connection and is not the one that ends the data, every read from its arrival on fails with an error that holds its level and its code. Conversely, whatever the transport does, connecting fails with the name of an alert only if such an alert arrived: in the clear before anything else, or protected with the key agreed on with ServerHello; and a read reports an alert only if it arrived, protected with the key of the server and with the number that was due.", "quantifier": "for all alerts, all points of the handshake, all legal flights, all divisions of the bytes into pieces with pauses anywhere, ChangeCipherSpec records anywhere, all sequences of reads, all primitives that work", "why_tests_cant": "No test has a server that refuses, and the alert can arrive at every point and cut at every byte; that a failure is always reported with the right reason, and not as the end of the stream or as a damaged record, is a claim about all of these.", "anchors": ["src/tls/protocol/client.rs:571-612", "src/tls/protocol/client.rs:793-844", "src/tls/protocol/client.rs:967-1023", "src/tls/types/alert.rs:163-194", "src/tls/types/record.rs:70-79"]}
{"id": "C203", "title": "A TLS client reports the failures of its transport, and only those", "statement": "Connecting over TLS, and reading, writing, flushing and shutting down on the connection, fail with an I/O error of some kind only if the transport has failed with that kind, and with the error for an early end only if the transport's stream has ended; the one exception is that a write, flush or shutdown that comes after a shutdown was asked for may answer 'broken pipe'. Conversely no failure is swallowed: as long as connecting is pending or has succeeded, and no call on the connection has answered with an error, no read, write, flush or shutdown of the transport has failed since the beginning.", "quantifier": "for all transports (any answers in any order), all server behaviour, all primitives, any number of polls, all sequences of calls on the connection", "why_tests_cant": "A failure can come at any call on the transport, in any state of the handshake and of the connection, also with data waiting in either direction; that each of these reaches the caller with its kind, and that no other event looks like one, is a claim about all executions.", "anchors": ["src/tls/protocol/client.rs:571-612", "src/tls/protocol/client.rs:793-844", "src/tls/protocol/client.rs:967-1023", "src/tls/protocol/client.rs:1027-1144", "src/tls/protocol/stream.rs:158-211", "src/tls/protocol/stream.rs:287-313"]}
{"id": "C204", "title": "A multiplexer reports the failures of its connection, and only those", "statement": "On a multiplexed connection, accepting a stream or reading from one fails only if reading from the connection failed with that kind of error, or with 'unexpected end' if the connection ended in the middle of a frame, or with 'invalid data' if what arrived is not the beginning of any sequence of frames. Opening a stream, writing, flushing and shutting down fail only if writing to the connection or flushing it failed with that kind of error, or with 'broken pipe' if shutting down that same stream was asked for before. Conversely a failure of the connection is reported by the very call that meets it: as long as no call has answered with a failure, the connection has not failed.", "quantifier": "for all connections (any answers in any order), all bytes from the peer, all sequences of calls on any number of streams", "why_tests_cant": "The calls on all streams share one connection, and a failure can come at any of its calls, with any frame half read or half written; that it reaches the caller with its kind, and that no state of another stream looks like a failure, is a claim about all interleavings.", "anchors": ["src/libp2p/mplex/frame.rs:146-224", "src/libp2p/mplex/stream.rs:150-284", "src/libp2p/mplex/stream.rs:306-350", "src/libp2p/mplex/stream.rs:397-490"]}
{"id": "C205", "title": "A stream that breaks is not taken for one the peer has ended", "statement": "Reading the next length-prefixed message reports the end of the messages only if the peer ended the stream at that point; and a stream on which a peer may ask for services is given up without a failure only if the peer ended it behind whole messages, the first of which is the negotiation header. A stream that fails before the end of a message makes reading fail with that kind of error, and reading fails for no other reason than such a failure, an end inside the message, or a length of more than ten bytes. Serving such a stream fails only if sending an answer failed with that kind of error, or the header or a request could not be read for that reason; and as long as it does not fail, no write to the stream and no flush has failed.", "quantifier": "for all streams (any bytes in any chunks, any pauses, any failure at any point) and all sets of offered services", "why_tests_cant": "Whether a cut connection looks like an orderly end depends on where the cut falls and how each layer below reports it; tests use connections which end in an orderly way.", "anchors": ["src/libp2p/io.rs:25-61", "src/libp2p/io.rs:90-110", "src/bin/ipfs.rs:75-110", "src/tls/error.rs:41-49"]}
{"id": "C206", "title": "Negotiating a protocol reports the failures of the stream, and only those", "statement": "Opening a stream for a protocol fails only if writing to the stream or flushing it failed with that kind of error (or with 'write zero' if the stream accepts no more bytes), or if, in the place of the header or behind a proper header in the place of the answer, the stream broke with that kind of error before a whole message had come, or ended there ('unexpected end'), or brought a length of more than ten bytes or a message that is not one of those expected ('invalid data'). Conversely, as long as opening a stream does not fail, whether it has succeeded, has been refused or is waiting, the stream has not failed in any call made of it.", "quantifier": "for all streams (any bytes in any chunks, any pauses, any failure at any call) and all protocol names", "why_tests_cant": "The negotiation writes, flushes and reads twice, and each of these can fail or be cut at any byte; that every failure reaches the caller with its kind and that nothing else does is a claim about all of them.", "anchors": ["src/libp2p/multistream.rs:11-39", "src/libp2p/io.rs:90-127", "src/bin/ipfs.rs:271-300"]}
{"id": "C207", "title": "A protocol handler that reports success has read all that the peer sent", "statement": "The bitswap handler reports success only if the peer ended the stream behind whole messages that can all be decoded. It reports a failure of the stream only if writing, flushing or shutting down failed with that kind of error, or reading did behind messages that can be decoded; and as long as it does not report one, no write, no flush and no shutdown has failed. The latter holds of the identify handler as well.", "quantifier": "for all streams (any bytes in any chunks, any pauses, any failure at any call), with or without an identifier asked for, and all public keys", "why_tests_cant": "What a handler answers when the stream fails, ends early or brings garbage depends on the point where this happens; tests run handlers against well-behaved peers.", "anchors": ["src/ipfs/bitswap/handler.rs:20-127", "src/ipfs/identify.rs:14-57", "src/libp2p/io.rs:25-61"]}
{"id": "C208", "title": "Messages read over TLS, and their end, are those the peer authenticated", "statement": "Length-prefixed messages that are read one after the other over an established TLS connection stand in this order at the beginning of the data that the peer has authenticated, whatever happens to the bytes on the network and whatever other calls are made of the connection. The end of the messages is reported only if the peer has authenticated it as well.", "quantifier": "for all connections with any cipher, all bytes and failures on the network, all sequences of calls, and any number of messages", "why_tests_cant": "Two layers with their own buffering and their own notion of the end are stacked; whether a cut on the network passes through both as a failure is not visible in tests of either, and the cut may fall anywhere.", "anchors": ["src/tls/protocol/client.rs:1027-1049", "src/tls/error.rs:41-49", "src/libp2p/io.rs:25-61", "src/libp2p/io.rs:90-110"]}
{"id": "C209", "title": "Messages over a multiplexed stream over TLS are the messages that were sent", "statement": "Two programs that send each other length-prefixed messages over streams of a multiplexed connection over an established TLS connection: whatever somebody on the network without the keys does, however many other streams are used at the same time and wherever reads and writes are cut, the messages that are read from a stream are the first of those that were written to it at the other side, in their order; none is made up, changed, repeated, left out or mixed with those of another stream, and the beginning of a message that was never completed is not taken for one. And once everything has been delivered, whoever has read the stream without a failure or an end has read all of them.", "quantifier": "for all ciphers, all behaviours of the network, all interleavings of calls at both sides, any number of streams and messages of any length", "why_tests_cant": "Three layers with their own framing and buffering are stacked; a message can be cut at any byte by any of them, and other streams and an attacker can act at any moment. Tests see a few of these cuts and orders, and none of the attackers.", "anchors": ["src/libp2p/io.rs:25-61", "src/libp2p/io.rs:90-110", "src/libp2p/mplex/stream.rs:396-490", "src/tls/protocol/client.rs:1027-1080"]}
{"id": "C210", "title": "The messages on a multiplexed stream end only when the stream does", "statement": "Whoever reads length-prefixed messages from a multiplexed stream is told that there are no more only if the peer has closed the stream, or the connection below has ended, and not in the middle of a frame.", "quantifier": "for all transports, all sequences of calls on the connection and its streams, and any number of messages before the end", "why_tests_cant": "The multiplexer and the reader of messages each have a notion of the end and of a cut; where the connection is cut, and whether the cut passes through both as a failure, is not visible in tests of either.", "anchors": ["src/libp2p/io.rs:25-61", "src/libp2p/io.rs:90-110", "src/libp2p/mplex/stream.rs:404-414", "src/libp2p/mplex/frame.rs:146-180"]}
{"id": "C211", "title": "Blocks are shown only if the authenticated peer sent them on that stream", "statement": "When the bitswap protocol runs on a stream of a multiplexed connection over an established TLS connection, every block whose identifier is shown, and every directory whose entries are listed, is in a message that the peer at the other end of the TLS connection wrote to that stream, in the order in which it wrote them, with none left out before the last one shown. Somebody on the network without the keys cannot have a block shown, and what is sent on other streams is not shown.", "quantifier": "for all ciphers and hash functions, all behaviours of the network, all interleavings of calls at both sides, any number of streams, and messages of any number and length", "why_tests_cant": "It holds only if four layers (TLS records, frames, length prefixes, protobuf messages) hand each other exactly the bytes they should, for every way in which these are cut and interleaved; tests see a few ways, and no attacker.", "anchors": ["src/ipfs/bitswap/handler.rs:20-155", "src/libp2p/io.rs:90-110", "src/libp2p/mplex/stream.rs:404-414", "src/tls/protocol/client.rs:1027-1049"]}
{"id": "C212", "title": "The table of random numbers shows the numbers and counts their digits", "statement": "`test_detrand` prints one line for each number of the deterministic generator, in their order: the number in base 16 with eight digits and the same number in base 2 with 32 digits. Below the table it prints, for each of the 32 places, how many of the lines have a 1 there.", "quantifier": "for all lengths of the table", "why_tests_cant": "The table has a hundred thousand lines, and the counts summarise all of them; that every line and every count is right follows only from the loop, not from looking at samples of the output.", "anchors": ["src/bin/test_detrand.rs:5-27", "src/util/detrand.rs:15-26"]}
{"id": "C213", "title": "An identification that is shown is the first one the authenticated peer sent on that stream", "statement": "When the identify client runs on a stream of a multiplexed connection over an established TLS connection, an identification that it shows is the first message that the peer at the other end of the TLS connection wrote to that stream behind the negotiation. If that peer is a node running the identify handler, what is shown is its public key and the versions, protocols and addresses the handler announces. Somebody on the network without the keys cannot have another identification shown, and neither can what is sent on other streams.", "quantifier": "for all ciphers, all behaviours of the network, all interleavings of calls at both sides, any number of streams, all public keys, and messages of any number and length", "why_tests_cant": "It holds only if four layers (TLS records, frames, length prefixes, protobuf messages) hand each other exactly the bytes they should, for every way in which these are cut and interleaved; tests see a few ways, and no attacker.", "anchors": ["src/bin/ipfs.rs:328-343", "src/ipfs/identify.rs:14-57", "src/libp2p/io.rs:90-110", "src/libp2p/mplex/stream.rs:404-414", "src/tls/protocol/client.rs:1027-1049"]}
{"id": "C214", "title": "The peer on a stream over TLS is asked for exactly the block that was asked for", "statement": "When a block is asked for, by the text of its content identifier, on a stream of a multiplexed connection over an established TLS connection, a peer that reads messages from that stream behind the negotiation reads at most one, and this asks for exactly the block that the text names. Somebody on the network without the keys cannot change the request, repeat it or add another, and neither can what is sent on other streams.", "quantifier": "for all identifiers, all ciphers and hash functions, all behaviours of the network, all interleavings of calls at both sides, any number of streams, and any number of attempts to read", "why_tests_cant": "It holds only if the text, the identifier, the protobuf message, its length prefix, the frames and the TLS records each stand for exactly the one before, for every identifier and every way in which they are cut; tests see a few identifiers and no attacker.", "anchors": ["src/ipfs/bitswap/handler.rs:20-155", "src/libp2p/io.rs:62-110", "src/libp2p/mplex/stream.rs:404-414", "src/tls/protocol/client.rs:1027-1049"]}
{"id": "C215", "title": "What the commands of the IPFS program show is what the authenticated peer said, protocol negotiation included", "statement": "When `ipfs identify` shows an identification, and its stream is one of a multiplexed connection over an established TLS connection, the peer at the other end of the TLS connection has written to that stream, in this order and before anything else, the name of the negotiation protocol, the name of the identify protocol, and a message that is this identification. When `ipfs show` has shown blocks, the peer has written the name of the negotiation protocol, the name of the bitswap protocol and then messages, and the blocks shown are those in these messages, in their order, up to some block.", "quantifier": "for all runs of the program, all ciphers and hash functions, all behaviours of the network, all interleavings of calls at both sides, any number of streams, and messages of any number and length", "why_tests_cant": "The negotiation must take exactly the bytes that belong to it from the stream, however they are cut, or the protocol behind it reads something else; tests see a few ways of cutting, and no attacker.", "anchors": ["src/bin/ipfs.rs:264-343", "src/libp2p/multistream.rs:11-39", "src/ipfs/bitswap/handler.rs:20-155", "src/libp2p/mplex/stream.rs:404-414"]}
{"id": "C216", "title": "A service is started on a stream over TLS only if the authenticated peer asked for it there", "statement": "When the node serves a stream of a multiplexed connection over an established TLS connection and starts a service on it, this is one of its services, and the peer at the other end of the TLS connection has written to that stream, in this order and before anything else, the name of the negotiation protocol, names that are none of the node's services, and the name of the service that is started. If this is bitswap, the blocks that are shown are those in the messages the peer wrote behind that name, in their order, up to some block.", "quantifier": "for all lists of services, all ciphers and hash functions, all behaviours of the network, all interleavings of calls at both sides, any number of streams and of refused names, and messages of any number and length", "why_tests_cant": "The loop that answers requests runs for as long as the peer asks for unknown services, and what is left of the stream goes to the service; tests cannot run it for every number of requests and every way in which the bytes arrive, and have no attacker.", "anchors": ["src/bin/ipfs.rs:75-110", "src/ipfs/node.rs:49-56", "src/libp2p/multistream.rs:11-39", "src/ipfs/bitswap/handler.rs:20-155"]}
{"id": "C217", "title": "`ipfs identify` with a node as its peer shows this node and no other", "statement": "When `ipfs identify` runs on a stream of a multiplexed connection over an established TLS connection, and the peer is a node that serves the stream, starts its identify service there and answers, an identification that is shown has the public key of that node and the versions, protocols and addresses the node announces, whatever somebody on the network without the keys does and whatever happens on other streams.", "quantifier": "for all public keys and lists of services, all ciphers, all behaviours of the network, all interleavings of calls at both sides, any number of streams, and all ways in which the transports take and bring the bytes", "why_tests_cant": "It is about two programs and all layers between them at once: negotiation, length prefixes, the protobuf message, frames and TLS records; tests run a few executions, and no attacker.", "anchors": ["src/bin/ipfs.rs:75-110", "src/bin/ipfs.rs:264-343", "src/ipfs/identify.rs:14-57", "src/libp2p/multistream.rs:11-39", "src/libp2p/mplex/stream.rs:404-414"]}
{"id": "C218", "title": "The UDP test server shows every datagram it is sent", "statement": "The server of `udptest` shows the whole text of each datagram it is sent, in the order of arrival, and from what it shows one can tell which texts arrived.", "quantifier": "for all sequences of datagrams of any number and length", "why_tests_cant": "A few short datagrams are shown as they should be; what is shown of long ones, and of ones chosen to look like others, is seen only if all are considered.", "anchors": ["src/bin/udptest.rs:35-53"]}
