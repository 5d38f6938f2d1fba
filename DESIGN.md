# Formal model of ngfs in Lean 4: design

## What is here

* `properties.jsonl`: the properties, in English, in terms of API and observable effects.
* `lean/Verif/Model/*.lean`: the model. Each definition cites the file and lines of `/repo` it transcribes.
* `lean/Verif/Spec/*.lean`: the small specifications the properties are stated against. They do not use the model's helpers.
* `lean/Verif/Lemmas/*.lean`: helper lemmas. Nothing in them is a claim.
* `lean/Verif/Props/*.lean`: the property theorems, each beside an `example` showing a concrete non-trivial case.
* `MANIFEST.json`: property → theorem names and status.
* `seeded/LOG.jsonl`: wrong programs tried against the theorems and what failed.

## Modelling conventions

* A byte is `UInt8`, a byte string is `List UInt8`. Unsigned machine integers are `Nat`, with an explicit bound
  wherever the width matters; `as u8` is `UInt8.ofNat`, `as u16` is `% 2^16`, and so on. Bit operations are kept as
  bit operations (`&&&`, `|||`, `<<<`, `>>>`).
* `Result` is `Except` over an error type that mirrors the Rust error enumeration. A panic (failed `assert!`,
  slice out of range, `unimplemented!()`) is an explicit error value, so that "does not panic" is provable or refutable.
* `&mut self` methods return the new state. Loops are structural recursion, or recursion with a proved measure.
* `usize` is 64 bits. Buffers are shorter than 2^63 bytes, as Rust guarantees (`isize::MAX`).
* Cryptographic primitives (AEAD, hashes, HKDF, signatures, AES block) are parameters. Where a proof needs a fact
  about them (for instance: AEAD open inverts seal), it is a hypothesis of that theorem, listed below.
* Transports are modelled as the sequence of chunks they deliver; asynchronous polling as a step function.

## Trusted base

* Lean 4.33.0 kernel. Each property theorem depends at most on `propext`, `Classical.choice`, `Quot.sound`
  (checked with `#print axioms`, see "Checks").
* No axioms are added; no `sorry`, `admit`, `native_decide`, `bv_decide`, `implemented_by`, `unsafe`.
* The transcription of Rust into the model: read by hand, cited line by line. The Rust code is not executed or translated mechanically.
* Rust's and its libraries' semantics: `Vec`, slices, integer casts, `str::from_utf8`, `Ipv4Addr`/`Ipv6Addr` octets.

## Checks

From `lean/`:

* `lake build` builds every module (`Verif.lean` imports all of them).
* `grep -rnwE 'sorry|admit|axiom|native_decide|bv_decide|implemented_by|unsafe' Verif` prints nothing but words in comments, if any.
* `#print axioms <theorem>` for each theorem named in `MANIFEST.json` lists at most `propext`, `Classical.choice`, `Quot.sound`.
* In `seeded/LOG.jsonl`, `failed` is computed from the declarations that no longer elaborate and what depends on them. The lists for C100 and
  later were recomputed: the tester's filter on names had counted every such theorem of an affected module as failed. A bug whose `failed`
  is empty is one that no theorem noticed when it was tried; `tightened` names the theorem that has been changed to notice it, and
  where that is empty too, the claims still don't cover that detail.

## What is modelled

| model | source |
|---|---|
| `Varint` | `formats/protobuf/varint.rs` |
| `Protobuf` | `formats/protobuf/protobuf.rs` |
| `Asn1` | `formats/asn1/reader.rs`, `writer.rs`, `value.rs` |
| `Bencode` | `formats/bencoding/mod.rs` |
| `Binary` | `util/binary.rs` |
| `Util` | `util/util.rs`, `bittorrent/data.rs` |
| `Utf8` | `str::from_utf8` and UTF-8 encoding of the standard library |
| `Multibase`, `Cid` | `ipfs/types/multibase.rs`, `cid.rs` |
| `Bitswap` | `ipfs/bitswap/message.rs`, `block.rs` |
| `Dagpb` | `ipfs/dagpb.rs`, `unixfs.rs`, `fs.rs` |
| `Handler` | `ipfs/bitswap/handler.rs`, `ipfs/identify.rs`, the registry of `ipfs/node.rs`, registration and identify client of `bin/ipfs.rs` |
| `Multiaddr`, `MultiaddrText`, `Identify` | `libp2p/multiaddr.rs`, `peer_id.rs`, `identify.rs` |
| `Io` | `libp2p/io.rs`, `multistream.rs`, `connection_handler2` |
| `Mplex`, `MplexWake` | `libp2p/mplex` (frames, connection, streams; wakers) |
| `Libp2pTls` | `libp2p/tls.rs`, `bin/x509.rs` |
| `Pem`, `X509` | `crypto/pem.rs`, `x509.rs`, certificate verification in `tls/protocol/client.rs` |
| `TlsTypes`, `TlsCodes` | `tls/types` (handshake, extension, alert, record, code tables) |
| `TlsRecord` | `tls/types/record.rs`, `tls/protocol/stream.rs`, `tls/helpers.rs` |
| `TlsClient` | `tls/protocol/client.rs`, `client_state.rs`, `tls/helpers.rs` |
| `Quic` | `quic/encryption.rs`, `parameters.rs`, `spec.rs`, packets and frames of `bin/quic_test.rs` |
| `QuicEndpoint` | `quic/wire.rs`, endpoint of `bin/quic_test.rs` |
| `Detrand`, `DetrandTest` | `util/detrand.rs`, `bin/test_detrand.rs` |
| `UdpTest` | `bin/udptest.rs` (without its `main`) |
| `CertTime` | `libp2p/tls.rs` 123-125 (the times of the certificate; the calendar and the format of `chrono`) |
| `IpfsMain` | `bin/ipfs.rs` (`main`; keys, printing and the accept loop left out) |
| `Asn1Tool` | `bin/asn1.rs` |
| `Listen` | the accept loops of `bin/chatserver.rs`, `bin/sock.rs`, `bin/iotest.rs`, `bin/server.rs`, `bin/proxy.rs`, `bin/ipfs.rs` |
| `Announce` | `bin/torrent_client.rs` (`get_tracker_urls`, `run_with_tracker`, commands `trackers` and `announce`); parsing of URLs and resolution of names are parameters, binding the socket and sending succeed |
| `Id` | `util/id.rs` |
| `Crypt` | `crypto/crypt.rs`, `crypto/aead.rs` |
| `Ipfs` | `bin/ipfs.rs` (the connection, lines 185-223) |
| `Producer`, `SelectTest`, `Threads`, `Cli` | `bin/manual_futures.rs`, `bin/select_test.rs`, `bin/threads.rs`, `bin/cli.rs` |
| `Sock` | `bin/sock.rs`, `bin/iotest.rs`, `bin/client.rs` |
| `TlsWake` | the wakers of `tls/protocol/client.rs`, `stream.rs` |
| `CertText` | the printing in `crypto/x509.rs`, `ObjectRegistry` in `formats/asn1/printer.rs` |
| `View` | `bin/view.rs`, `Value::dump` in `formats/bencoding/mod.rs` |
| `TlsTool` | `bin/tls_client.rs` (`test_echo`, which nothing calls, left out) |
| `Asn1Print`, `HexDump` | `formats/asn1/printer.rs`, hex dump and indentation in `util/util.rs` |
| `Echo`, `MultibaseTool`, `MultibaseTest` | `bin/server.rs`, `bin/multibase.rs`, `bin/test_multibase.rs` |
| `Torrent` | `bittorrent/torrent.rs` |
| `Peer`, `Tracker` | `bin/torrent_client.rs`, `bittorrent/protocol.rs`, `bin/tracker.rs` |
| `Sim`, `Clock` | `sim/network.rs`, `bin/netsim.rs`, `sim/clock.rs` |
| `Chat`, `Proxy`, `Download` | `bin/chatserver.rs`, `bin/proxy.rs`, `bin/download.rs` |

Not modelled: the hash functions and ciphers behind `crypto/aead.rs` and `crypto/crypt.rs` (parameters; HMAC and HKDF are taken to be
those of RFC 2104 and RFC 5869 in C180, and parameters elsewhere), the `main` functions of the programs except that of `ipfs`
(argument parsing, sockets, connecting), the unused skeleton of an endpoint in `quic/spec.rs` (its parts that others use are modelled), `Display`/`Debug` output except where a property speaks about it, error texts,
`ipfs/bitswap/bitswap.rs` (an unused skeleton), `tls/protocol/server.rs` (empty), and the experiments among the programs
(`quinntest`, `tls_test`).

## Plan per property

| id | model | proof |
|---|---|---|
| C01, C02 | `encode_u64`, `decode_u64` | induction on the value / byte string against a base-128 value specification |
| C03 | `U64Decoder::input` iterated | false at the tenth byte: negation with a witness, agreement elsewhere as `_partial` |
| C04, C05 | `PBufWriter`, `PBufReader` | "decodes at any offset" lemma per field, induction on the field list; partition invariant for totality |
| C06 | `write_fixed64`, `Bits64` | false (big-endian writer, little-endian reader): negation; exact characterisation |
| C07 | `write_tag` assertion | false (writer panics for every input): negation |
| C08 | `VarInt::to_*` and writers | case split on sign, modular arithmetic; exact acceptance of every field reader over the types of `Spec/Schema.lean` |
| C09–C12 | message `to_pb`/`from_pb` | field-list round trip of C04 plus a fold invariant per message |
| C13, C14, C67 | `multibase.rs` | bit-accumulator invariant for base 16/32/64, positional-value invariant for base 58; the standards as equations between numbers in two bases, with uniqueness |
| C15, C16 | `cid.rs` | varint prefix decoding + multibase |
| C17 | `multiaddr.rs` | as C04 |
| C18–C21 | `binary.rs` | reader/writer combinators with a compositional "decodes" predicate |
| C22, C23 | `tls/types` | composition of C19 lemmas; finite tables by case analysis |
| C53, C54 | `tls/types` | safety predicate composed over the reader combinators; C53 fails at type 24, C54 fails: negations with witnesses |
| C24 | `RecordReceiver` | state machine over chunks, abstraction = concatenated bytes |
| C25–C28, C31 | `helpers.rs`, `EstablishedConnection` | ideal AEAD parameter; step function; invariants over operation histories |
| C56–C58, C60 | `EstablishedConnection`, `PlaintextStream` | read invariant over histories; negations with witnesses |
| C29, C30, C55, C59, C61 | `client_state.rs`, `compute_application_secrets` | accepted-language theorem; decision logic |
| C32, C63, C64 | `asn1` | DER as a relation with positions; structural induction on items for the writer, on nesting depth for the reader; relocation and no-peek lemmas for ranges; negations with witnesses |
| C33, C65 | `bencoding` | the grammar as a relation with positions, strict and lenient; soundness by induction on nesting, completeness by induction on the length, and the standard encoding as a function on plain values |
| C34, C35 | `util.rs`, `data.rs` | induction; refinement to a set of indexes |
| C36–C38, C31, C68–C73 | `mplex` | frames as a relation on bytes; connection as a step function over arbitrary operations with a history of events; invariant relating history, wire and state; negations with witnesses |
| C39, C40, C74, C75 | `multistream.rs`, `io.rs`, `connection_handler2` | one relation from the bytes that arrive and how they end to the answer, proved functional and equal to the code's answers; writing over any acceptance pattern; negations with witnesses |
| C41, C52, C76 | `sim/network.rs`, `netsim.rs` | channel as a multiset of arrivals over any history (permutation invariant); invariant over any schedule of the two peers; negations with witnesses |
| C42, C43 | `fs.rs`, `block.rs` | fold invariant; decision logic with abstract hash |
| C44, C77, C83 | `quic/encryption.rs` | xor algebra; ideal cipher parameter; injectivity of the nonce |
| C45, C84 | `quic/spec.rs` | reassembly invariant over any list of frames (data is the covered prefix); bit arithmetic |
| C46, C82 | `quic/parameters.rs` | the language of parameter lists as a relation, soundness and completeness of the decoder, round trip |
| C78–C81, C85 | `bin/quic_test.rs` | header and frames as relations on bytes, soundness and completeness of the parser, round trip through C77; negations with witnesses |
| C47, C48, C66 | `pem.rs` | grammar of PEM text, soundness and completeness of the parser; non-termination as failure for every number of iterations |
| C49, C86, C89, C90 | `torrent.rs`, `torrent_client.rs` (`Transfer`) | arithmetic tiling by counting; requests conserved up to permutation by any history; induction over in-order answers |
| C50, C87, C88 | `torrent_client.rs` (`do_peer`) | wire format as a relation; the loop depends on the concatenation of the chunks only; soundness and completeness; invariants of the loop |
| C91–C93 | `torrent.rs` | torrent files as a relation on bencode values; acceptance if and only if, through C33 and C65; overflow analysis |
| C94–C97 | `torrent_client.rs` (trackers), `tracker.rs` | datagrams as sequences of numbers; acceptance if and only if; negations with witnesses |
| C51, C98, C99 | `x509.rs` | accepted items characterised by a relation (`fromAsn1 i = ok c ↔ Says c i`); round trips through it and through C32; negations with witnesses |
| C102, C103 | `libp2p/tls.rs`, `bin/x509.rs` | key pairs as public key and signing function; size bound on encodings; C32, C47, C98, C100 |
| C120–C124, C126 | `ipfs/bitswap/handler.rs` | the handler over any transport, with a log of what it prints; induction over the messages of the stream on top of C40; the outcome is a function of the bytes; negations with witnesses |
| C125 | `ipfs/identify.rs`, identify client | composition of C11 and C40 |
| C127 | `ipfs/node.rs`, registration in `bin/ipfs.rs` | induction over the registrations |
| C128–C131 | wakers of `libp2p/mplex/stream.rs` | transition system over tasks: polls, wake-ups by the transport, dropped streams and dropped futures; invariant: every waiter is awake or its waker is stored, and somebody awake or registered with the transport drives the connection; negations with witnesses |
| C132, C133 | two instances of `libp2p/mplex` | composition of two connections with bytes in flight both ways (`Spec/MplexPair.lean`); invariant: frames taken are the first of the frames asked for, data only for open streams, each number opened and accepted once |
| C134-C137 | `quic/wire.rs`, endpoint of `bin/quic_test.rs` | keys against RFC 9001 written with literal labels; composition of C22, C46, C78, C85 with a length calculus for the writers; negations with witnesses (a client with one identifier for both ends, a message followed by a byte, a message in two packets); characterisation of the panics by induction on the loop |
| C138 | key schedule of `tls/helpers.rs` | on top of C29, C61: the info of HKDF-Expand-Label is one-to-one, so equal keys give equal secrets, labels and transcript hashes, step by step back to the shared secret; collisions are excluded for the values of one handshake only |
| C139 | `util/detrand.rs` | closed form x + S(n)(214012 x + 2531011) of n steps; 2^k divides S(n) iff it divides n, by induction on k; counting |
| C140 | `formats/asn1/printer.rs` | the output as a list of lines; the first four characters tell the kind, the drawing of the tree tells where a child ends; induction on the size. False because of backslashes in texts: negation and `_partial` |
| C141 | `util/util.rs` | cells of fixed width; splitting of ranges |
| C142 | `bin/server.rs` | transition system; invariant with what each task still owes, sums over the connections |
| C143 | `bin/multibase.rs` | on top of C13 |
| C144, C145 | `tls/protocol/client.rs` | on top of C27: the state after a successful shutdown never changes; for the reader an invariant relating what is still to arrive to the records of the sender, and a measure that falls with each read |
| C146, C147 | text of `multiaddr.rs` | the text as pieces after slashes; pieces without slashes determine the sequence, names determine the kind. C147 is false: negation and `_partial` |
| C148 | two TLS connections and an attacker | C27 (what is sealed) and C60 (what authenticates) meet in the record numbers: the messages taken in are the first ones sent; C31 for the end |
| C149 | multiplexer over TLS | transition system of two sides, each a multiplexer and a TLS connection, and a network that delivers anything not forged; by C148 every run is one of C132 |
| C150 | TLS client program over options, files and a transport | the options by the PEM grammar (C66); the program's steps keep an invariant that it has a connection only from a finished handshake; then C29, C100 |
| C151 | the same, and a peer and an attacker | the program's steps are a list of calls on the connection; C27 for the request, C60 and C148 for what is shown |
| C152 | the flight of a finished handshake | partial (see below): C29 gives the flight, whose suite, share and signature algorithm are in the hello; counterexample for the rest by evaluation |
| C153 | `view` over options, files and SHA-1 | partial: a text without newlines is determined by its lines; groups by the empty lines between them; counterexample by evaluation |
| C154 | `Value::dump` | partial: the printout as lines with indentation; mutual induction over values, elements and entries, what follows being indented less |
| C155 | `view info`, `view hash` | the lines after the name are taken off from the end, the one before it from the front |
| C156 | `main` of `view` | by C65 and C91 |
| C157 | TLS client, handshake and connection | partial: for every function, that it gives no panic or that the message is one of the two; invariants of the handshake and of C60; counterexample by evaluation |
| C158 | printing of certificates | partial: the printout as lines, the registry's names all different; a name taken apart at the first equals sign and the first comma; counterexample by evaluation |
| C159 | printing of certificates | the lines before the issuer are taken off from the front, the last two from the end |
| C160 | TLS client, handshake | for every state of the handshake an invariant "the run is ahead": what is still to come is exactly the rest of the flight, and the transport still has enough answers; each step either moves to the next state or waits having used an answer; measure: answers left. Complements C29 (only authenticated servers are reached) |
| C161, C162 | TLS wakers | `TlsWake` computes beside each poll who wakes the task; by cases for each function, induction over the loops; C162 fails for reads: counterexample |
| C163 | `bin/tls_client.rs` with the TLS client | C160 strengthened (what is left of the transport's answers, at most two ends used up), then one lemma per stage of the program: writing, flushing, reading; reading by induction on the answers left and the data left, an inner induction skipping session tickets |
| C164 | `bin/manual_futures.rs` | state after any list of polls in closed form (sum of the timer's answers), induction from the right |
| C165, C166 | `bin/select_test.rs` | transition system; per-socket conservation by induction on the actions; counterexamples: a long datagram, an endless run that feeds the first socket; bounds on the rounds needed by induction |
| C167 – C169 | `bin/sock.rs`, `bin/iotest.rs`, `bin/client.rs` | the reading lemmas of C35; induction on the script of the transport; counterexamples |
| C170 | `bin/threads.rs` | transition system of three threads and a channel, invariant with an interleaving relation, measure |
| C171 | `bin/cli.rs` | from C01, C04, C08, C16 |
| C172 | `bin/ipfs.rs`, `tls/protocol/client.rs` | the models of C29 and C100 joined; the libp2p meaning of the certificate from `Spec/Libp2pTls`. A concrete handshake with a plain self-signed certificate runs to the end, which refutes the statement; the part about the owner of the key follows from C29 and C100 with the self-signed trust anchor |
| C173 | `bin/ipfs.rs` | the model of the multistream client (C39) runs on the transport of the model of the TLS client (C29); what the negotiation leaves unread is the input of the handshake. Invariant: the script of the socket stays orderly, and what has been read and what is unread add up to what the socket brings; then C29 for the safety half and C160 for the liveness half |
| C174 | `bin/ipfs.rs`, `tls/error.rs` | the answers that the TLS connection gives to its user are the script of the transport on which the negotiation runs. Lemma: such a script settles, i.e. after an end or an error of the kind "unexpected end" nothing more comes (C148 for the end, an invariant on the read state for the errors); then the lemma of C173 for the negotiation and C148 for what was read |
| C175 | `bin/ipfs.rs`, `libp2p/multistream.rs` | the models of both sides of C39 and C75, tied together by the condition that each transport brings what the other side has sent (a state in which nothing is on the way). Forward reasoning from the headers, which both sides send before they read, determines the whole exchange |
| C176–C179 | messages of `unixfs`, `dagpb`, `bitswap/message`, `identify`, `peer_id` | a spec of schemas (`Spec/Schema.lean`: types of fields, how often, the five schemas) over the spec of C09 for messages as lists of fields. One lemma (`parsed_iff`): the loop over the fields returns a state exactly if the fields of the message stand in a relation to the state, given that the relation is kept step by step in both directions; then one step lemma per message |
| C180 | `crypto/aead.rs`, `crypto/crypt.rs` with HMAC and HKDF of RFC 2104 and 5869 over abstract hash functions | non-interference: two libraries that agree on right lengths (`SameWithin`) give the same whole life of a connection; an invariant on the lengths of all keys in a state, kept by every step of handshake, connection and endpoint. The module is shown to meet `Crypto.Works` and `Crypto.Expands`, the assumptions of C160, C161, C163 and C173, from assumptions on the hash functions and ciphers only |
| C181 | `util/id.rs` as a transition system over handles and reference counts, the allocator picking any free address | the specification traces handles back to the one they were copied from, without addresses; an invariant relates the two: same address exactly if same origin, every count is the number of live handles |
| C182 | `Asn1.readItemN n`, `Bencode.parseValueN n`: the decoders with room for `n` nested calls | false; induction on the depth, at any position in the input, for data nested deeper than any given number; bounds that grow with the input from the lemmas on fuel |
| C183 | the parser of C33 | false; the bytes of all paths as a function on values; lower bound for one family of files, upper bound by induction on the relation of C33 between values and bytes |
| C184 | the connection of C42 with the transport's script | false; induction on the number of reads for the growth; one invariant each for the bytes to send, the decrypted bytes and the received bytes over all histories; invariant of the handshake's loop |
| C185 | the connection of C37 | false; induction on the transport's answers: as long as no beginning is complete all is kept; invariant of all operations for frames of limited size |
| C186 | `test_multibase.rs` | induction on the lines, with C13 and C34 |
| C187 | `trackersCmd`, `announceCmd` | false; the URLs used are a `filterMap` of the list; induction on the list |
| C188 | `runWithUrl`, with senders of datagrams | false; by cases along the exchange, with C94 |
| C189 | `doPeer` | the requests are conserved (C49); what is not used is incomplete (C50) |
| C190 | the transition system of C104 | false; induction on the number of rounds; the invariant of C104 |
| C191 | `select`, `list` | false; what is left waiting is unfinished (C40), or cut at the limit |
| C192 | the loop of `netsim.rs` on the model of C52 | false beyond 1000 ms per packet; invariant over rounds, draws grow, induction on what is left to learn |
| C193 | `opt_min`, `next_event_time` | induction on the list; the send time counts the packets sent |
| C194 | accept loops of the programs that listen | false if `accept` or the proxy's `connect` fails; invariant over histories |
| C195 | `asn1` tool on top of reader, writer, printer, PEM | false for `true` and trailing bytes; DER is unique (structural induction), reader is total, what it reads can be written |
| C196 | `bin/ipfs.rs` (`main`) | the negotiations of C173 and C39 and the handlers of C120 and C125 in the order of `main`; case analysis on where it stops, with a concrete host for the two negations. False: the command line is read late, and the process does not end |
| C197 | `libp2p/tls.rs` (times) | the calendar of `chrono` counts years and months off; the specification has the closed formula for the number of a day. Induction over the years and the months, then the round trip of C102 |
| C198 | `libp2p/tls.rs` (times) | from C197's certificate. False: always `GeneralizedTime` |
| C199 | `multibase.rs`, `cid.rs` | invariant of the bit loop: bytes so far and the bits left over are the number of the digits so far; base 58 from the digits of a number in base 256. The second half is false; the standard of C67 says which texts are the encoder's |
| C200 | `cid.rs`, `multibase.rs` | C199 for the text, C15 for the bytes; bounds on the number of 46 digits beginning with `Qm` show that it is no identifier of version 1 |
| C201 | `multiaddr.rs` | the format as an inductive relation on bytes and components, shown equal to the parser by induction on the length; lengths of codes decide when the bytes are altered |
| C202 | TLS client, handshake and connection | the invariant of C160 with the alert in place of the rest of the flight: each step either waits having used an answer of the transport or moves on, and the only end is the one error; the names by exhaustion of the 256 codes; for the converse the invariant of C157 with this error in place of the crash |
| C203 | TLS client, handshake and connection | invariant over all steps: what is left of the transport is part of the original, and every error or end that a state remembers has its cause there; conversely by tracing which answers a call uses |
| C204 | `mplex` | invariant over all calls: what was read is a sequence of frames and the part of a frame in the buffer, what is left of the transport is part of the original, and every remembered failure of a stream has its cause; conversely by tracing which answers a call uses |
| C205 | `libp2p/io.rs`, `bin/ipfs.rs` | false: a failure 'unexpected end of file' between messages counts as the end; what holds is an exact characterisation of the end and of failures, from C40, and by induction over the rounds of the serving loop |
| C206 | `libp2p/multistream.rs`, `libp2p/io.rs` | which answers of the stream are used by writing and flushing, by induction over them; what an answer read says of the bytes, from C40; composed along the two requests |
| C207 | `ipfs/bitswap/handler.rs`, `ipfs/identify.rs` | false: a cut stream and a message that cannot be decoded both end the handler with success; what holds is by induction over the messages, with the answers of the stream traced as for C206 |
| C208 | `tls`, `libp2p/io.rs` | the answers of the TLS connection are the script of the reader of messages; C60 and C28 for the one, C40 and C205 for the other. The end is false: cutting the network connection between records passes for it |
| C209 | `libp2p/io.rs`, `mplex`, `tls` | the answers to the reads on a stream are the script of the reader of messages; C149 and C133 for what they contain, C40 for the reader, and a sequence of messages can be taken apart in one way only |
| C210 | `libp2p/io.rs`, `mplex` | the answers to the reads on a stream are the script of the reader of messages; C71 and C204 for what they mean, C205 for the reader. False: a connection that is cut inside a frame makes the messages end |
| C211 | `ipfs/bitswap/handler.rs`, `libp2p`, `tls` | C121 for the handler, C149 for the stream, and a sequence of messages can be taken apart in one way only (C209) |
| C212 | `bin/test_detrand.rs` | the loops print and count; induction over the places and over the numbers, against texts read as numbers in bases 16, 2 and 10 |
| C213 | `bin/ipfs.rs`, `ipfs/identify.rs`, `libp2p`, `tls` | C125 for the handler and the client, C149 for the stream, and a sequence of messages can be taken apart in one way only (C209) |
| C214 | `ipfs/bitswap/handler.rs`, `libp2p`, `tls` | C120 for the request, C149 for the stream, and a sequence of messages can be taken apart in one way only (C209) |
| C215 | `bin/ipfs.rs`, `libp2p`, `tls` | the negotiation takes exactly two messages (`negotiate_took`, from C40), then as C211 and C213 |
| C216 | `bin/ipfs.rs`, `libp2p`, `tls` | induction over the requests (`serveLoop_took`), then as C215 |
| C217 | `bin/ipfs.rs`, `ipfs/identify.rs`, `libp2p`, `tls` | what the serving node writes (`serve_wrote`, `identify_wrote`) put into C215 |
| C218 | `bin/udptest.rs` | induction over the datagrams. False: the buffer has 1024 bytes, and quotes and newlines are not escaped |
| C110 | `sim/clock.rs` | transition system, one action per period under the lock; negation with a witness; invariant relating time, wakers and due polls |
| C111, C112 | `bin/proxy.rs` | induction over the rounds with the specification of reading and writing of C40; negations with witnesses |
| C113, C114, C119 | `bin/download.rs` (reading, handshake) | source = bytes and arbitrary cuts; each reading function depends on the bytes only; monotonicity in the number of rounds |
| C115–C118 | `bin/download.rs` (reader and writer) | transition system over any interleaving; invariant relating flags, position of the writer and bytes sent; negations with witnesses |
| C104–C109 | `chatserver.rs`, `escape_string` | transition system over any interleaving of tasks; invariant from bytes read to queues to bytes sent; progress by explicit schedules; negations with witnesses |
| C100, C101 | `client.rs` 257-303 | ranges of C63 give the signed bytes; converse by encoding; combined with C29 for whole handshakes |

## Where the code and a property disagree

The property keeps its full statement (`Cxx_statement`), its negation is proved, and what does hold is proved under
a name ending in `_partial`.

* C03: the incremental varint decoder accepts a tenth byte above 1 and drops the overflowing bits; the slice decoder refuses it.
* C06: `write_fixed64` writes big-endian, the reader reads little-endian.
* C07: `write_fixed32` trips its own assertion on every input.
* C20: `write_u16_nested` does not check that the body fits 16 bits; longer bodies get a truncated length.
* C53: parsing a KeyUpdate handshake message (type 24) panics (`unimplemented!`).
* C54: the 24-bit length of a handshake message is read and ignored; the body is parsed from whatever follows.
* C28: an authenticated record with no application data makes `poll_read` return zero bytes, which its caller takes as end of stream.
* C56: `PlaintextStream::poll_flush` ignores that `poll_write` answered zero and calls it again.
* C57: `poll_fill_incoming` leaves the read state "active" when a record is malformed or does not authenticate.
* C58: `poll_fill_incoming` first waits for the transport, even if a complete record is already in its buffer.
* C55: `hmac_verify` asserts that the Finished message is as long as the hash; the server can send any length.
* C59: the configured server name is sent to the server and not used again; a certificate for any name is accepted.
* C62: one record is taken as one handshake message. Messages that share a record are dropped behind the first, messages
  spread over records fail to parse.

* C32: `encode_item` writes both booleans as 0. Object identifiers with a second component of 40 or more (under 2) are
  decoded differently, those with fewer than two components are written as empty.
* C48: `expect_string` loops forever at the end of the input; exactly the texts cut inside BEGIN or END hang.
* C69: `offset + payload_len` overflows for lengths near 2^64; the panic happens under the lock and poisons it.
* C70: `StreamWriter::poll_shutdown` appends the Close frame after draining and does not drain again; its own flush is refused from then on.
* C71: a Message without payload makes a read return no bytes.
* C72: one received frame is held at a time; until its addressee takes it, no other stream proceeds.
* C73: a run of bytes with the high bit set is buffered as an unfinished varint, however long it is.
* C74: `multistream_list` takes UnexpectedEof as the end of the list, so a list cut anywhere counts as complete.
* C75: `connection_handler2` confirms `/ipfs/id/1.0.0` whatever was requested.
* C41: `Channel::recv` hands out the earliest packet without looking at the clock, so packets arrive before their time.
* C76: `Peer::step` compares the timeout the wrong way around: it sends again only before the timeout, never after it.
* C45: `CryptoStream::check_pending` slices `frame.data[skip..]` with `skip` beyond the end when a frame ends before the data already received.
* C46: the decoder has no case for parameter 0x00, so the original destination connection identifier comes back as unknown.
* C78: `encode_initial_packet` sends the low 32 bits of the packet number, and the length as 14 bits.
* C79: `parse_packet` panics on short headers (`todo!`), and `decrypt_payload` slices by the length field without checking it.
* C80: frame type 0x02 (ACK) is taken for PING, and type 0x01 (PING) refused.
* C81: the offset of a CRYPTO frame is ignored when its data is collected.
* C82: integers received in a longer form are written in the shortest.
* C49: a torrent with more pieces than its files fill is accepted, and `last_piece_length` underflows; positions in a piece are cut to 32 bits.
* C50: `parse_message` has no case for request, cancel and port messages (`unimplemented!`), and slices a piece message without looking at its length.
* C86: `complete_request` stores the block without comparing any hash.
* C87: the handshake received is printed and otherwise ignored.
* C89: `do_peer` requests while `active <= 100`.
* C92: `from_bytes` demands `files` and `announce-list`, which are absent from many torrents.
* C93: `total_length += file.length` and `piece_length * pieces.len()` overflow.
* C95: `receive_tracker_response` does not compare the transaction number; `tracker.rs` compares none.
* C96: the buffer for the response has 4096 bytes.
* C97: `leechers + seeders` and `peer_count * 6` overflow 32 bits; the number of peers sent must be that sum.
* C98: the ASN.1 writer writes TRUE as 0, which the reader takes for FALSE.
* C99: `RelativeDistinguishedName::from_asn1` demands one attribute; unique identifiers have no case; `Extension::from_asn1` ignores what follows the value.
* C101: `verify_certificate` does not look at the validity period, the issuer, or whether the signer may sign certificates.
* C106: `broadcast` copies the list of connections under a lock and sends after releasing it, so overlapping broadcasts reach queues in different orders.
* C108: `escape_string` does not escape backslashes.
* C110: `poll_wait_until` looks at the time and stores the waker under two separate locks; a notification in between is lost.
* C111: with `--read-buf-size 0` or `--write-buf-size 0` every read gives no bytes, which the loop takes for the end of the data.
* C112: after a read error the write half is dropped like after the end of the data.
* C114: `read_message_raw` does not check that a read gave no bytes.
* C117: `on_receive_error` and the check of bit fields set `disconnect` and send the writer no command; the channel's sender lives in the shared state, so it is never closed.
* C118: `on_received_message` unwraps the result of a send to a writer that may have returned.
* C122: `bitswap_handler_inner` computes the identifier of a received block and prints it, but never compares it with the one
  asked for.
* C123: the errors of the loop over the blocks leave `bitswap_handler_inner` through `?`, past the shutdown.
* C124: `PBNode::from_pb` and `Node::from_dagpb_data` are applied to every block, and fail for raw blocks and for everything
  but directories; the failure ends the handler.
* C129: `poll_accept_id` and `poll_read` return an error of `poll_fill_incoming` without waking anybody else.
* C130: only the waker of the last poll is known to the transport. If its future is dropped, the other waiters have their
  wakers in the table of streams, but nobody reads frames on their behalf. The same happens if the other side opens a number
  twice: `MplexStreams::add` replaces the entry and with it the waker (hence the hypothesis in C128).
* C131: `InternalWriter` is empty; two tasks that both got "pending" from `poll_drain` share one waker in the transport.
* C135: `parse_initial` takes the server's keys for every packet whose destination is in the table, but the table of a listening endpoint has
  the identifiers of the clients: if a client's packet is addressed to an identifier some client used as source, it cannot be read.
* C136: `try_pop_handshake` asserts that the message, written again, is the whole buffer, and `process_initial_handshakes` that
  transport parameters are written as they were read. A second message in a packet is enough to panic.
* C137: `handle_packet` begins with an empty buffer for each packet.
* (Not a property: `udp_receiver_inner` returns after the first datagram, line 844; `recvAll` models the loop as if it went on.)
* C140: `escape_string` leaves backslashes as they are, so a newline and a backslash followed by `n` are printed alike.
* C147: `fmt` of an address writes `/ipv4/` and `/ipv6/`; the specification has `/ip4/` and `/ip6/`.
* C152: of the server's hello the client looks at the suite and the key share only, and of the encrypted
  extensions at nothing. A wrong session id, a compression method, another version in `supported_versions` (or none)
  and an application protocol that was not offered are all accepted.
* C153, C154: `view` prints texts from torrent files as they are. A path or an address with a newline in it looks like
  two; a text can look like a number, a list, a dictionary or like indentation; of binary data of more than twenty bytes only
  the length is shown.
* C157: reading a `KeyUpdate` is `unimplemented!()`, so that the nine bytes 22 3 3 0 4 24 0 0 0 crash a client that is waiting for
  ServerHello; a Finished of another length than the hash crashes it too (C55).
* C158: `name_to_simple_string` joins attributes with commas and does not escape their texts; an attribute with an unknown
  identifier, and a value of another type than the two strings, is shown as a question mark.
* C162: `poll_fill_incoming` calls `wake_by_ref` before it answers "pending" (client.rs 979, 991, both with "TODO: Is this needed?"),
  so a task that waits for data keeps a processor busy. It is not needed: the transport has the waker, or data has come and the task is woken anyway.
* C165: datagrams of more than 1024 bytes are cut. C166: `Receiver::poll` asks the first future first, always; the second socket can be
  starved.
* C167: `sock --read-buf-size 0` takes the empty read for the end. C168: `process_connection` never looks at the mode. C169: one `write`,
  whose count is ignored.
* C172: `bin/ipfs.rs` makes its connection with `ServerAuth::SelfSigned`; the TLS client then checks that the certificate is signed with its own key and stops there. Neither the presence nor the signature of the libp2p extension is checked, and no peer id is compared, so that anyone with a key pair is accepted as any host. `C172_false` completes a handshake with a certificate without the extension.
* C175: two nodes of this program cannot open a bitswap stream to each other: because of the constant answer of C75 the opener gets `InvalidData` for every protocol but `/ipfs/id/1.0.0`, while the acceptor runs the service.
* C178: `Message::from_pb` (bitswap/message.rs 253-260) handles fields 1 and 3 only; block presences and pending bytes of the schema that message.rs 203-227 has types for are never filled in. (A part that should occur once is refused by most readers here if it is repeated, where protobuf lets the last one count; C176, C177 and C179 say so explicitly.)
* C182: `read_item` (asn1/reader.rs 187-361) and `parse_node` (bencoding/mod.rs 316-398) call themselves for every level of nesting and have no limit on it, so a file of a few megabytes, well-formed, overflows the stack. What a TLS server sends is limited by the size of a record.
* C183: `parse_value` (bencoding/mod.rs 372-394) gives every value a copy of its whole path, so a long key above many values is stored once for each of them.
* C184: `poll_fill_incoming` (client.rs 967-1020) reads from the transport before it looks whether a whole record has already arrived, and takes out one record. With records smaller than what the transport delivers at a time, more comes in with each read than goes out.
* C185: `poll_read_frame` (mplex/frame.rs 146-203) has no limit on the length of a message, nor on that of a varint while it has not ended; all is stored in `incoming_data`.
* C187: `get_tracker_urls` leaves out the URLs that `Url::parse` refuses, `trackers` prints them; so the numbers of all that follow are shifted.
* C188: `open_tracker_connection` and `receive_tracker_response` print the address that `recv_from` gives, and take the datagram from whomever it is.
* C190: each connection of the chat server has an `unbounded_channel` (chatserver.rs 216), and `broadcast` never waits.
* C191: `multistream_list` refuses a list of more than 65536 bytes; `multistream_select` reads an answer of any length.
* C192: because the comparison with the timeout is the wrong way around (C76), a packet that is lost on a channel that takes one packet in more than a second is never sent again.
* C194: in the programs that listen, `accept().await?` leaves `main`, and in the proxy also `TcpStream::connect(…).await?`; that drops the runtime and every connection with it. A client that comes while the proxied server is down ends the proxy for all the others.
* C195: `bin/asn1.rs` never looks whether the reader is at the end of the data, so a copy of a file with several structures has only the first; and `encode_item` writes every boolean as `false` (see C32).
* C196: `bin/ipfs.rs` calls `Opt::parse` only after it has connected and negotiated TLS and the multiplexer, so that without a host on port 4001 not even `--help` works, and a wrong command line costs a connection. After the command it sleeps in an endless loop, so that `show` and `identify` never return to the shell, not even when they have failed.
* C198: `generate_certificate_inner` writes both times as `GeneralizedTime`. RFC 5280 (4.1.2.5) demands `UTCTime` for every date through 2049, so that a strict reader rejects every certificate that hosts make today.
* C199: the decoders of hexadecimal, base 32 and base 64 drop what does not make up a byte: bits of the last digit, a whole last digit, missing padding, and everything after the first `=`. RFC 4648 (3.5, 12) lets a decoder refuse these, as they give several texts for one identifier: a base 32 text of an identifier with 36 bytes has four.
* C205: `ReadOptVarInt::poll` answers "no more messages" when the stream fails with the kind `UnexpectedEof` before the first byte of a
  message (`libp2p/io.rs` 31). That is the kind with which an encrypted connection reports that it was cut off without the peer's
  goodbye (`tls/error.rs` 45), and a multiplexed one that it was cut off inside a frame (`mplex/frame.rs` 176). So whoever can cut the
  connection can make it look as if the peer had nothing more to say. `C205_false` and `C205_false_serving` give the
  counterexamples; the `_partial` theorems say exactly when the end is reported.
* C207: `bitswap_handler_inner` leaves its loop with success when a message cannot be decoded (`handler.rs` 73-76), without reading what
  follows, and when the stream breaks in the way described for C205. `C207_false` and `C207_false_undecodable` give the
  counterexamples; `C207_success_partial` says what success does mean.
* C208: put together, C203 and C205: if the network connection is closed between two records, the TLS connection answers a read with
  `UnexpectedEof` (as C28 asks), and the reader of messages above it takes this for the end. So the end of the messages is not
  authenticated although TLS would provide for it (`C208_false`); the messages themselves are (`C208_messages`).
* C210: a connection that is cut in the middle of a frame makes a read on a stream fail with `UnexpectedEof` (C204), and the reader of
  messages takes this for the end (C205). So a cut connection passes for the end of the messages although the multiplexer notices
  it (`C210_false`). An empty frame does the same (C71).
* C218: the server of `udptest` reads each datagram into a buffer of 1024 bytes, and the rest of a longer one is lost without a word; and it
  prints the text as it is, so that one datagram can look like several (`C218_false`, `C218_told_false`).
* C119: `do_peer_connection` prints the hash the peer names and does not compare it.
* C64: `read_var_u64` shifts bits out at the top without an error.

Behaviour that is excluded by a hypothesis, with a theorem showing that it must be:

* C21: QUIC integers of 2^62 and more are written corrupted (`C21_too_large_is_corrupted`).
* C22: an empty server-name extension read from a server message is written in a form that is not accepted there
  (`C22_server_name_not_reread`). Finished takes every remaining byte of its buffer.
* C15, C16: a version-0 identifier that is not a 32-byte SHA-256 dag-pb hash has no version-0 form (`ValidCid`).

## Simplifications

* Bitswap: `payload`, `blockPresences` and `pendingBytes` of the message are skipped by the code and by the model.
* C43: the hash functions are parameters.
* TLS: X.509 parsing of certificate entries is a parameter (`x509 : Bytes → Option X`) of the message types; `C100_handshake` fills it in with the model of `x509.rs`.
* X.509: the ranges and counts in `TypeError` are left out. Signature verification is a parameter. The clock's times and the contents of files are arguments.
* TLS: the transport is a script of answers (`Transport`); quantifying over scripts covers every behaviour. Wakers are not modelled.
  The cryptographic primitives are one parameter `Crypto`; `Crypto.Correct` (decryption inverts encryption, which adds 16
  bytes) is a hypothesis where it is needed, met by `toyCrypto`. `Crypto.Expands` says that HKDF gives the requested number of bytes. Verification of a certificate against the
  trust anchor is part of `Crypto`. `seals` and `sent` are history variables.
  The bounded loops of the model carry a number of iterations that is enough for every input: running out of it would be a panic, and
  by `C157_handshake_partial` and `C157_connection_partial` the only panics are those of the two messages.
* mplex: the connection's lock makes every operation atomic; in `Model/Mplex.lean` an operation is one poll and
  any interleaving of polls is a list of operations. A panic while the lock is held poisons it: every later operation panics.
  The counter of stream numbers is followed up to 2^64 (hypothesis `connects ops < 2^64 - 33`). Several readers of the same
  stream (`Stream` is not cloneable) do not exist. Wakers are in `Model/MplexWake.lean`: a waker is the task it wakes; the
  transport keeps the waker of the last poll it answered with "pending", one for reading and one for writing, as tokio promises.
* C148, C149: an attacker is one who cannot make a record that authenticates under a number unless it is the one the peer sealed with that number
  (`NotForged`, a hypothesis about what arrives; the examples meet it). In C149 the multiplexers start on a connection on which nothing is on
  its way (after the negotiation), and the connection is read before the multiplexer asks for what was read.
* TLS client program: the parsed options, the files and the outcome of connecting are parameters; `write_all`, `flush` and
  `read` are polled step by step; the hex dump of the bytes shown is C142's
* `view`: texts on standard error are left out; that standard output can be written is assumed
* TLS, C160: the primitives are assumed to work (`Crypto.Works`: deriving up to 48 bytes, encrypting with a key and nonce of the right
  sizes and computing a MAC do not fail; `ClientAuth.Usable`: the client's certificate parses, its key signs, both of moderate size),
  and each message of the flight lies in a record of its own, which is how the client reads them (see C62).
* TLS, C163: the TCP connection is closed by the server after its answer, and goes on saying so: the client takes one record for each
  answer of its transport (C58), so that with a connection that stays open it would wait although it has everything.
* `Producer`: the task is polled with the number of times the timer is found to be over; `Join::poll` of the futures crate polls each future
  that has not returned. `SelectTest`: dropping a `recv_from` that is not ready takes nothing (documented for tokio); `select` of the futures
  crate may take either of two ready futures. `Threads`: a channel keeps the order of sends; `recv` fails only if all senders are dropped.
* `Ipfs`, over TLS: the negotiation runs on a transport whose answers are those that the connection gives in some history of calls; that the calls are those the negotiation makes is not needed for the theorem, which holds for all histories.
* `Ipfs`: the socket is the scripted transport of the TLS model from the beginning; the program's settings and key pairs are parameters; printing is left out.
* Crypto module (C180): SHA-512 is left out (nothing uses it), and a `Hasher` is the bytes it was given. AES-GCM is assumed not to fail on fewer
  than 2^32 bytes. In QUIC the lengths are those of array types, so only the derivation can fail there.
* Identifiers (C181): reference counts are unbounded (`Arc` aborts the program beyond `isize::MAX`).
* ipfs `main`: what `clap` makes of the command line, `establish_connection` and `connector.connect` are parameters here (they have models of their own, but for `clap`); a task that is spawned is run to where it gets with the script of its stream.
* certificate times: the clock is a parameter, the moment in whole seconds (the format drops fractions); `chrono` is taken to have the Gregorian calendar without leap seconds. Moments before 1970-01-01 01:00 are left out.
* io, multistream: an `async fn` is its awaited result, with `pending` answers of the transport skipped; `tokio`'s `read`, `write_all`,
  `flush`, `take` are transcribed from their documented behaviour. Names are kept as bytes (`from_utf8_lossy` is left out).
  The handlers started by `connection_handler2` are a separate model (`Model/Handler.lean`).
* Handlers: what a handler prints is a log of events (`Event`); hex dumps, rulers and progress lines are left out. The hash
  functions are parameters. The registry is an association list in order of registration; the last registration of a name wins.
* Trackers: a UDP datagram longer than the buffer is cut to it, as the operating system does. Random numbers (transaction identifiers) are arguments.
* sim: the random numbers are arbitrary sequences of decisions (`Luck`); probabilities, `f64` arithmetic and trace output are left out, times
  do not overflow. `Clock` and its wakers are a number. A lost first copy also drops the duplicate, as in the code.
* QUIC: AES and AEAD are the parameter `Quic.Crypto`; the key schedule (HKDF) is left out: secrets are given, and found by connection
  identifier through a function. Sockets, the clock, connection tables and printing in `quic_test.rs` are left out; reading frames keeps
  only what is returned. Retry, 0-RTT and handshake packets are "not supported" errors, as in the code.
* BitTorrent: SHA-1 is a parameter. Arithmetic that overflows is a panic, as in a build with overflow checks. The peer's bytes are a list of
  chunks followed by the end of the stream or an error; writing to the peer succeeds. Flags that are set and never read (`we_have`, choking
  and interest) and printing are left out.
* Chat server: one action is one access to what the tasks share or one operation on a socket; all orders of actions are considered. `String::from_utf8_lossy`
  is a parameter. Totals that are only printed are left out; a connection is known by its number.
* Clock: one action is one period under the lock; tasks may poll at any time. Overflow of the time panics under the lock and poisons it.
* Proxy: the two directions are independent; accepting and connecting, the delays and the totals that are printed are left out.
* Downloader: what each read finds is arbitrary. `tokio`'s mutex is not poisoned by panics, and a panic ends both tasks, which are joined. Looking up names,
  connecting and printing are left out; `they_have` and `we_have` are never changed.
* ASN.1 and bencode: nesting is bounded only by the input (C182); the size of a stack frame is not modelled. Error wrappers with positions are dropped.
* TLS messages whose writer is `unimplemented!` (EncryptedExtensions, CertificateRequest, NewSessionTicket, KeyUpdate,
  EndOfEarlyData, CertificateAuthorities) are modelled with a panicking writer.
