{"id": "C01", "title": "Bits <-> byte bijection", "statement": "Bits::from_u8(b).to_u8() == b for every byte, Bits::from_u8(x.to_u8()) == x for every Bits value, and field bit_i is set exactly when the 2^i bit of the byte is set.", "quantifier": "every byte, every Bits value, every bit position", "why_tests_cant": "the unit tests check the single value 42", "anchors": ["rust_ipv8/src/serialization/bits.rs: Bits::from_u8, Bits::to_u8, Bits::from_bools"]}
{"id": "C02", "title": "ConnectionType flag coding", "statement": "ConnectionType::decode(t.encode()) == t for every connection type; decode is total over both booleans, the unspecified pair (false,true) reads as UNKNOWN, and the three encodings are pairwise different.", "quantifier": "every connection type and every pair of flag booleans", "why_tests_cant": "tests only use decode((true,true)); the claim is about the whole table and its inverse", "anchors": ["rust_ipv8/src/payloads/connectiontype.rs: ConnectionType::encode, ConnectionType::decode"]}
{"id": "C03", "title": "VarLen16 round-trip and wire layout", "statement": "A VarLen16 of n <= 65535 bytes serializes to the big-endian u16 n followed by the n bytes; reading a VarLen16 from those bytes followed by anything returns the same content and leaves the reader exactly behind it.", "quantifier": "every content of at most 65535 bytes and every continuation of the buffer", "why_tests_cant": "tests use ten-byte and empty contents; the boundary 65535 and arbitrary continuations are unbounded", "anchors": ["rust_ipv8/src/serialization/varlen.rs: VarLen16 Serialize/Deserialize"]}
{"id": "C04", "title": "VarLen size limits are enforced exactly", "statement": "Serializing a VarLen16 fails exactly when it has more than 65535 bytes and a VarLen32 exactly when it has more than 4294967295 bytes, and Packet::add of such a payload returns Err and leaves the packet's bytes unchanged.", "quantifier": "every content length, every packet", "why_tests_cant": "CI cannot allocate 4 GiB (the repository's test is #[ignore]d), and the boundary is one value among 2^32", "anchors": ["rust_ipv8/src/serialization/varlen.rs: VarLen16::serialize, VarLen32::serialize", "rust_ipv8/src/serialization/mod.rs: Packet::add"]}
{"id": "C05", "title": "VarLen32 and VarLen64 round-trip and wire layout", "statement": "VarLen32 (u32 prefix) and VarLen64 (u64 prefix) contents within their limit serialize to prefix plus content and read back identically from any buffer that starts with that encoding, consuming exactly it.", "quantifier": "every content within the limit and every continuation", "why_tests_cant": "unbounded content sizes", "anchors": ["rust_ipv8/src/serialization/varlen.rs: VarLen32, VarLen64"]}
{"id": "C06", "title": "Length-prefixed decoding never over-reads or invents bytes", "statement": "Reading a VarLen16/32/64 from arbitrary bytes succeeds exactly when the buffer holds the full prefix and at least as many bytes as the prefix announces, and then returns precisely those announced bytes; otherwise it returns Err (no panic, no partial value).", "quantifier": "every byte string, including hostile ones", "why_tests_cant": "the input space is all byte strings; tests only feed self-produced encodings", "anchors": ["rust_ipv8/src/serialization/varlen.rs: VarLen16Visitor::visit_seq, VarLen32Visitor::visit_seq"]}
{"id": "C07", "title": "RawEnd captures exactly the rest of the packet", "statement": "Reading RawEnd never fails and yields exactly the bytes from the cursor to the end of the buffer; writing RawEnd appends exactly its bytes without a prefix.", "quantifier": "every byte string", "why_tests_cant": "unbounded input", "anchors": ["rust_ipv8/src/serialization/rawend.rs: RawEnd Serialize/Deserialize"]}
{"id": "C08", "title": "IPv4 address wire format", "statement": "An IPv4 Address serializes to its four octets followed by the big-endian port (6 bytes) and reads back identically from any buffer starting with them; conversely any 6 or more bytes decode to an IPv4 address whose encoding is those 6 bytes, and fewer than 6 bytes give Err.", "quantifier": "every IPv4 address, every port, every byte string", "why_tests_cant": "2^48 addresses times all continuations", "anchors": ["rust_ipv8/src/networking/address.rs: Address Serialize/Deserialize"]}
{"id": "C09", "title": "IPv6 addresses are refused atomically", "statement": "Adding any payload that contains an IPv6 address (puncture, puncture-request, introduction-request, introduction-response) returns Err and leaves the packet unchanged, whichever of its address fields is the IPv6 one; with only IPv4 addresses the add succeeds.", "quantifier": "every payload value, every packet, every position of the IPv6 address", "why_tests_cant": "no test exercises IPv6 at all; the claim is over all field combinations", "anchors": ["rust_ipv8/src/networking/address.rs: Address::serialize", "rust_ipv8/src/serialization/mod.rs: Packet::add"]}
{"id": "C10", "title": "Header wire format and round-trip", "statement": "Packet::new of a header made with Header::py_ipv8_header(mid, t) is the 23 bytes 0,2,mid,t, and peek_header/pop_header on it (with any payload bytes behind) return that same header, pop_header advancing exactly 23 bytes.", "quantifier": "every 20-byte mid, every message type byte, all following bytes", "why_tests_cant": "2^168 headers; tests use two", "anchors": ["rust_ipv8/src/serialization/header.rs: Header::py_ipv8_header, Header Serialize/Deserialize", "rust_ipv8/src/serialization/mod.rs: Packet::new, peek_header, pop_header"]}
{"id": "C11", "title": "Header acceptance is exact", "statement": "Reading a header from arbitrary bytes succeeds exactly when there are at least 23 bytes and the first two are 0 and 2; the result depends on those 23 bytes only, always carries a 20-byte mid, a message type below 256 and size 23, and otherwise Err is returned (never a panic).", "quantifier": "every byte string", "why_tests_cant": "all byte strings of all lengths", "anchors": ["rust_ipv8/src/serialization/header.rs: HeaderVisitor::visit_seq"]}
{"id": "C12", "title": "Any header accepted by Packet::new reads back unchanged", "statement": "For every Header value h, if Packet::new(h) succeeds then reading the header of the resulting packet yields h again.", "quantifier": "every Header value (arbitrary mid_hash vector, arbitrary u64 message type, arbitrary size)", "why_tests_cant": "Header's fields are public and unconstrained; tests only use well-formed ones", "anchors": ["rust_ipv8/src/serialization/header.rs: Header, Header::serialize", "rust_ipv8/src/serialization/mod.rs: Packet::new"]}
{"id": "C13", "title": "Packet::new fails exactly on missing header fields", "statement": "Packet::new(h) returns Err exactly when h has no mid_hash or no message_type, and otherwise produces the bytes 0,2, the mid bytes as given, and the message type reduced modulo 256.", "quantifier": "every Header value", "why_tests_cant": "unconstrained vectors and u64 values", "anchors": ["rust_ipv8/src/serialization/header.rs: Header::serialize", "rust_ipv8/src/serialization/mod.rs: Packet::new"]}
{"id": "C14", "title": "Authentication payload round-trip", "statement": "A BinMemberAuthenticationPayload serializes to 00 4a, 'LibNaCLPK:', the 32 encryption-key bytes and the 32 public-key bytes (76 bytes), and next_payload on a packet containing it returns the same payload and advances exactly 76 bytes.", "quantifier": "every pair of 32-byte keys, every prefix and suffix of the packet", "why_tests_cant": "2^512 key pairs", "anchors": ["rust_ipv8/src/payloads/binmemberauthenticationpayload.rs"]}
{"id": "C15", "title": "Reading an authentication payload from hostile bytes does not panic", "statement": "next_payload::<BinMemberAuthenticationPayload> (hence verify) returns Ok or Err, and never panics, whatever bytes were received.", "quantifier": "every byte string", "why_tests_cant": "the failing inputs are well-formed length-prefixed strings shorter than 74 bytes; tests only feed valid keys", "anchors": ["rust_ipv8/src/payloads/binmemberauthenticationpayload.rs: deserialize (contents[0..10], contents[10..42], contents[42..74])", "rust_ipv8/src/serialization/mod.rs: PacketDeserializer::verify"]}
{"id": "C16", "title": "Exact outcome of reading an authentication payload", "statement": "For arbitrary bytes, the read is Err when the length-prefixed key is truncated; otherwise with content c: panic when c is shorter than 10 bytes; Err when c does not start with 'LibNaCLPK:'; panic when it does but is shorter than 74 bytes; else Ok with encryption key c[10..42] and public key c[42..74].", "quantifier": "every byte string", "why_tests_cant": "case split over all byte strings", "anchors": ["rust_ipv8/src/payloads/binmemberauthenticationpayload.rs: deserialize"]}
{"id": "C17", "title": "The cursor advances by exactly the bytes read", "statement": "After a successful next_payload the cursor has advanced by exactly the number of bytes that the payload occupied in the packet.", "quantifier": "every payload type, every packet content, every cursor position", "why_tests_cant": "the advance is recomputed from the decoded value rather than from what was read; agreement must hold for all inputs", "anchors": ["rust_ipv8/src/serialization/mod.rs: PacketDeserializer::next_payload"]}
{"id": "C18", "title": "IntroductionRequest round-trip", "statement": "An IntroductionRequestPayload with IPv4 addresses serializes to three addresses, a flag byte (bit0/bit1 connection type, bit7 advice), big-endian identifier and the extra bytes, and as last payload of a packet reads back identical.", "quantifier": "every payload value with IPv4 addresses, every packet prefix", "why_tests_cant": "unbounded extra bytes and 2^160 field values", "anchors": ["rust_ipv8/src/payloads/introductionrequestpayload.rs"]}
{"id": "C19", "title": "IntroductionResponse round-trip up to the tunnel flag", "statement": "An IntroductionResponsePayload with IPv4 addresses reads back identical in every field except tunnel, which always reads back false; its wire form does not depend on tunnel.", "quantifier": "every payload value with IPv4 addresses, every packet prefix", "why_tests_cant": "unbounded values", "anchors": ["rust_ipv8/src/payloads/introductionresponsepayload.rs"]}
{"id": "C20", "title": "Introduction flag byte: unknown bits are ignored and canonicalised", "statement": "Any byte string long enough decodes as an introduction request (response); the result does not depend on flag bits 2..6 (2..7), and re-encoding gives back the consumed bytes exactly when those bits are zero and the connection-type bits are not the pair (false,true).", "quantifier": "every byte string", "why_tests_cant": "all 256 flag bytes times all contents", "anchors": ["rust_ipv8/src/payloads/introductionrequestpayload.rs: deserialize", "rust_ipv8/src/payloads/introductionresponsepayload.rs: deserialize", "rust_ipv8/src/payloads/connectiontype.rs"]}
{"id": "C21", "title": "Puncture, puncture-request and time payload wire format", "statement": "PuncturePayload and PunctureRequestPayload (14 bytes: two addresses and identifier) and TimeDistributionPayload (8 bytes big-endian) read back identical from any buffer starting with their encoding; any buffer of at least that length decodes, and re-encoding gives the consumed bytes.", "quantifier": "every value with IPv4 addresses and every byte string", "why_tests_cant": "unbounded", "anchors": ["rust_ipv8/src/payloads/puncturepayload.rs", "rust_ipv8/src/payloads/puncturerequestpayload.rs", "rust_ipv8/src/payloads/timedistributionpayload.rs"]}
{"id": "C22", "title": "Nested packets round-trip at any depth", "statement": "A packet nested inside a packet reads back byte-identical, at any nesting depth; nesting succeeds exactly while the inner packet is at most 65535 bytes and otherwise returns Err leaving the outer packet unchanged.", "quantifier": "every packet content, every nesting depth", "why_tests_cant": "unbounded depth and size", "anchors": ["rust_ipv8/src/serialization/nestedpayload.rs: NestedPacket"]}
{"id": "C23", "title": "Packet::add is append-only and atomic", "statement": "Packet::add never modifies bytes already in the packet: on Ok the old bytes are a prefix of the new ones and the appended part does not depend on the old content; on Err the packet is unchanged; it never panics.", "quantifier": "every packet, every payload type and value", "why_tests_cant": "all payload types including user-defined ones", "anchors": ["rust_ipv8/src/serialization/mod.rs: Packet::add"]}
{"id": "C24", "title": "Messages read back payload by payload", "statement": "If payloads v1..vn of self-delimiting built-in types are added to a packet in order, then popping the header and calling next_payload with the same types in order returns v1..vn, and the cursor ends at the end of the packet.", "quantifier": "every list (any length, any mix of types) of payloads that add accepted", "why_tests_cant": "unbounded heterogeneous lists", "anchors": ["rust_ipv8/src/serialization/mod.rs: Packet::add, PacketDeserializer::next_payload"]}
{"id": "C25", "title": "User-defined payload structs round-trip", "statement": "Any payload struct derived from the library's building blocks (integers, bool, Option, Vec, Address, Bits, VarLen16/32/64, NestedPacket, nested structs, and RawEnd in last position) that add accepts reads back identical.", "quantifier": "every such struct type (arbitrary nesting) and every value", "why_tests_cant": "quantifies over types, not only values", "anchors": ["rust_ipv8/src/serialization/mod.rs: Packet::add, PacketDeserializer::next_payload", "rust_ipv8/src/payloads/mod.rs: Ipv8Payload"]}
{"id": "C26", "title": "serialized_size agrees with the bytes written", "statement": "For every payload value the size used to advance the cursor equals the number of bytes Packet::add appends for that value, and one fails exactly when the other fails.", "quantifier": "every payload type and value", "why_tests_cant": "two independent passes over the value must agree for all values", "anchors": ["rust_ipv8/src/serialization/mod.rs: PacketDeserializer::next_payload, Packet::add"]}
{"id": "C27", "title": "Failed reads do not move the cursor; peeking is pure", "statement": "If next_payload or pop_header returns Err, packet bytes and cursor are unchanged; peek_header never changes anything and pop_header returns exactly what peek_header would; reading never changes the packet bytes.", "quantifier": "every deserializer state and payload type", "why_tests_cant": "all states and types", "anchors": ["rust_ipv8/src/serialization/mod.rs: PacketDeserializer"]}
{"id": "C28", "title": "Cursor safety for reading", "statement": "From a fresh deserializer, any sequence of peek_header/pop_header/skip_header/next_payload calls, without authentication payloads and verification, never panics and keeps the cursor within the packet, for arbitrary received bytes.", "quantifier": "every byte string and every finite sequence of read calls", "why_tests_cant": "unbounded call sequences on hostile input", "anchors": ["rust_ipv8/src/serialization/mod.rs: PacketDeserializer"]}
{"id": "C29", "title": "Cursor monotonicity and prefix stability over all API histories", "statement": "Over any sequence of deserializer calls, including verify and verify_with, the cursor never moves backwards and the packet bytes are always a prefix of the received bytes.", "quantifier": "every byte string, every finite call sequence, every signature scheme", "why_tests_cant": "unbounded histories", "anchors": ["rust_ipv8/src/serialization/mod.rs: PacketDeserializer"]}
{"id": "C30", "title": "Signing appends a signature over everything before it", "statement": "Packet::sign returns the old bytes followed by exactly 64 bytes that are the signature of the old bytes under the given key.", "quantifier": "every packet, every key pair", "why_tests_cant": "all packets and keys", "anchors": ["rust_ipv8/src/serialization/mod.rs: Packet::sign", "rust_ipv8/src/crypto/signature.rs: sign_packet, sign"]}
{"id": "C31", "title": "A signed packet verifies with the signer's public key", "statement": "For every packet p and key pair k, p.sign(k) opened with start_deserialize and checked with verify_with(k.public_key()) gives true and leaves exactly p's bytes for reading.", "quantifier": "every packet and key pair of a correct signature scheme", "why_tests_cant": "all packets, all keys", "anchors": ["rust_ipv8/src/serialization/mod.rs: Packet::sign, PacketDeserializer::verify_with"]}
{"id": "C32", "title": "Authenticated messages verify and read back", "statement": "A packet made of a header, the sender's authentication payload, further payloads and a signature pops its header, verifies true, and then yields those payloads; a final RawEnd-carrying payload does not contain the signature.", "quantifier": "every header, key pair, list of payloads", "why_tests_cant": "unbounded messages", "anchors": ["rust_ipv8/src/serialization/mod.rs: PacketDeserializer::verify", "rust_ipv8/src/payloads/binmemberauthenticationpayload.rs"]}
{"id": "C33", "title": "Verification is sound", "statement": "If verify_with(pk) returns true then the last 64 bytes of the packet are a valid signature under pk of all bytes before them (header included); if verify returns true this holds for the public key embedded at the cursor. Consequently, with an unforgeable scheme, a packet whose content was never signed is rejected.", "quantifier": "every byte string, key and cursor position", "why_tests_cant": "all tamperings of all packets", "anchors": ["rust_ipv8/src/serialization/mod.rs: PacketDeserializer::verify, verify_with", "rust_ipv8/src/crypto/signature.rs: verify_raw, verify"]}
{"id": "C34", "title": "verify_with strips exactly the signature, or panics", "statement": "verify_with panics exactly when fewer than 64 bytes are left; otherwise, whether or not the signature is valid, it removes exactly the last 64 bytes and leaves the cursor alone; n calls remove 64*n bytes.", "quantifier": "every packet, every key, any number of repeated calls", "why_tests_cant": "boundary at 64 and unbounded repetition", "anchors": ["rust_ipv8/src/serialization/mod.rs: PacketDeserializer::verify_with"]}
{"id": "C35", "title": "Verifying and then reading a received packet does not panic", "statement": "On any received bytes, pop_header, verify and a following next_payload return (Ok/Err/bool) without panicking.", "quantifier": "every byte string", "why_tests_cant": "hostile inputs in a narrow length window (authentic-looking packets of 99..162 bytes) break it", "anchors": ["rust_ipv8/src/serialization/mod.rs: PacketDeserializer::verify, verify_with, next_payload"]}
{"id": "C36", "title": "Payloads added after signing are not covered by the old signature", "statement": "If any non-empty payload is added after Packet::sign, verify_with checks the last 64 bytes of the extended packet against all bytes before them, never against the originally signed content.", "quantifier": "every packet, key pair, added payload", "why_tests_cant": "all additions", "anchors": ["rust_ipv8/src/serialization/mod.rs: Packet::sign, Packet::add, PacketDeserializer::verify_with"]}
{"id": "C37", "title": "as_fixed_size accepts exactly the right length", "statement": "as_fixed_size::<[u8;N]>(data) returns Ok with exactly the same bytes when data has N bytes, and Err otherwise.", "quantifier": "every N and every byte string", "why_tests_cant": "all lengths", "anchors": ["rust_ipv8/src/util.rs: as_fixed_size"]}
{"id": "C38", "title": "Key construction yields usable, matching keys", "statement": "public_key of any key pair is 32 bytes; from_seed_checked only succeeds when the seed's public key is the given one, and it then signs verifiably under that key; constructors report Err instead of panicking on rejected input.", "quantifier": "every seed, public key and pkcs8 byte string", "why_tests_cant": "all keys", "anchors": ["rust_ipv8/src/crypto/signature.rs: KeyPair::new, from_bytes, from_seed_checked, from_seed_unchecked, public_key"]}
{"id": "C39", "title": "The registry is a last-write-wins map", "statement": "After any sequence of add_community calls, the community registered for a mid is the one added last with that mid, and adding a community never affects any other mid.", "quantifier": "every sequence of registrations", "why_tests_cant": "unbounded histories", "anchors": ["rust_ipv8/src/community/mod.rs: CommunityRegistry::add_community"]}
{"id": "C40", "title": "Messages are routed to exactly the right community, once", "statement": "forward_message on a packet whose header carries a registered mid and a non-reserved message type calls on_receive of that community exactly once, and of no other, with the parsed header, a deserializer over the unmodified packet with the cursor at 0, and the sender address; its result is returned.", "quantifier": "every registry history, packet and address", "why_tests_cant": "unbounded registries and packets", "anchors": ["rust_ipv8/src/community/mod.rs: CommunityRegistry::forward_message, Community::receive"]}
{"id": "C41", "title": "Legacy message types are swallowed", "statement": "A message of one of the 17 legacy types {235..244, 247, 248, 251..255} is answered Ok(()) without calling the community; every other type byte (in particular 245, 246, 249, 250 used by introduction and puncture messages) reaches on_receive.", "quantifier": "every message type, packet and community", "why_tests_cant": "the documented range 235..255 differs from the implemented set; the claim is over all type values", "anchors": ["rust_ipv8/src/community/mod.rs: Community::receive"]}
{"id": "C42", "title": "Undeliverable messages are reported and have no effect", "statement": "forward_message returns Err and calls no community exactly when the header is invalid or no community is registered under its mid (or the community itself returns Err); it never panics by itself; a community whose mid is not 20 bytes long can never receive anything.", "quantifier": "every byte string, registry and address", "why_tests_cant": "hostile inputs", "anchors": ["rust_ipv8/src/community/mod.rs: CommunityRegistry::forward_message"]}
{"id": "C43", "title": "Every receiver sees every handled datagram exactly once, in order, unaltered", "statement": "Whatever order the thread pool runs the receivers in, each registered receiver's sequence of on_receive calls is the sequence of datagrams taken from the socket, each exactly once, with its bytes (cut to the buffer size) and source address.", "quantifier": "every arrival history, every thread-pool schedule, any number of receivers", "why_tests_cant": "interleavings cannot be enumerated by tests", "anchors": ["rust_ipv8/src/networking/mod.rs: NetworkReceiver::listen"]}
{"id": "C44", "title": "Datagrams are handled one at a time", "statement": "No receiver is called with a datagram before every receiver has finished with the previous one.", "quantifier": "every schedule and history", "why_tests_cant": "interleavings", "anchors": ["rust_ipv8/src/networking/mod.rs: NetworkReceiver::listen (scope_fifo)"]}
{"id": "C45", "title": "Oversized datagrams are cut to the buffer size, others are intact", "statement": "A datagram of at most buffersize bytes is delivered unchanged; a longer one is delivered as its first buffersize bytes (no error); stale bytes of earlier datagrams never leak into a packet.", "quantifier": "every datagram history and buffer size", "why_tests_cant": "the receive buffer is reused across all datagrams; leakage depends on the history", "anchors": ["rust_ipv8/src/networking/mod.rs: NetworkReceiver::listen"]}
{"id": "C46", "title": "The listener only dies on I/O errors or receiver panics", "statement": "If every readiness event is backed by a queued datagram, socket reads succeed and no receiver panics, the listening thread never terminates, for any arrival and scheduling history. (In a process that has its thread pool; without one, see C112.)", "quantifier": "every history", "why_tests_cant": "unbounded histories", "anchors": ["rust_ipv8/src/networking/mod.rs: NetworkReceiver::listen, start"]}
{"id": "C47", "title": "Every arriving datagram is eventually delivered", "statement": "Every datagram that arrives at the socket is handed to the receivers without needing further datagrams to arrive.", "quantifier": "every arrival history", "why_tests_cant": "needs two datagrams arriving within one poll; timing dependent", "anchors": ["rust_ipv8/src/networking/mod.rs: NetworkReceiver::listen (PollOpt::edge, one recv_from per event)"]}
{"id": "C48", "title": "Starting IPv8 delivers packets to registered communities", "statement": "After IPv8::new, add_community and start, a received packet addressed to a registered community reaches it.", "quantifier": "every configuration, set of communities and arrival history", "why_tests_cant": "whole-program wiring over all histories", "anchors": ["rust_ipv8/src/lib.rs: IPv8::new, IPv8::start", "rust_ipv8/src/community/mod.rs"]}
{"id": "C49", "title": "The global thread pool is built at most once", "statement": "Over any sequence of IPv8::new calls the thread pool builder runs once, with the first caller's threadcount; only that first call can fail because of it.", "quantifier": "every sequence of IPv8::new calls", "why_tests_cant": "unbounded histories of a process-global", "anchors": ["rust_ipv8/src/lib.rs: IPv8::new, THREADPOOL_START"]}
{"id": "C50", "title": "Python verify binding", "statement": "borrowed_verify_signature on a message signed by the key embedded after its header returns (true, bytes between the authentication payload and the signature); it raises ValueError exactly when the header is invalid; returned bytes are always a contiguous part of the input.", "quantifier": "every byte string", "why_tests_cant": "all inputs", "anchors": ["rust_ipv8_in_python/src/borrowedbundler.rs: borrowed_verify_signature"]}
{"id": "C51", "title": "Python sign binding", "statement": "borrowed_create_signature(seed, key, data) returns data followed by a 64-byte signature that verifies under key, or raises KeyError exactly when seed or key is not 32 bytes or they do not belong together; it agrees with the verify binding.", "quantifier": "every seed, key and data byte strings", "why_tests_cant": "all inputs", "anchors": ["rust_ipv8_in_python/src/borrowedbundler.rs: borrowed_create_signature", "rust_ipv8/src/util.rs: as_fixed_size"]}
{"id": "C52", "title": "End-to-end delivery", "statement": "A packet built with Packet::new and add, sent with NetworkSender::send to a listening receiver that forwards into a registry, reaches the community registered for its mid with the same header and exactly the sent payloads, if it fits the receive buffer.", "quantifier": "every header, payload list, registry, sender address and buffer size", "why_tests_cant": "composition of all layers for all messages", "anchors": ["rust_ipv8/src/networking/mod.rs: NetworkSender::send, NetworkReceiver::listen", "rust_ipv8/src/community/mod.rs: forward_message", "rust_ipv8/src/serialization/mod.rs"]}
{"id": "C53", "title": "Default configuration is usable", "statement": "Every default bootstrap host and default socket address is an IPv4 address that can be put into a payload, bootstrap ports are non-zero, and the default buffer accepts every packet up to 2048 bytes.", "quantifier": "every default host; every packet up to the default buffer size", "why_tests_cant": "ties a table to the behaviour of serialization and the receive loop for all packets", "anchors": ["rust_ipv8/src/configuration.rs: Config::default"]}
{"id": "C54", "title": "Encodings are injective and prefix-free", "statement": "Two different values of a self-delimiting payload type never have encodings one of which is a prefix of the other; in particular different values have different encodings.", "quantifier": "every pair of values of each self-delimiting payload type", "why_tests_cant": "pairs of values are unbounded", "anchors": ["rust_ipv8/src/serialization/mod.rs", "rust_ipv8/src/payloads/"]}
{"id": "C55", "title": "Truncated fixed-format payloads are rejected", "statement": "Reading any self-delimiting payload from a proper prefix of its own encoding returns Err.", "quantifier": "every value of every self-delimiting built-in payload type and every truncation point", "why_tests_cant": "all truncation points of all values", "anchors": ["rust_ipv8/src/serialization/mod.rs: next_payload", "rust_ipv8/src/payloads/"]}
{"id": "C56", "title": "Relaying reproduces the received bytes", "statement": "Adding a payload that was read from a packet to another packet appends exactly the bytes it was read from, and a relay that pops the header, reads payloads and builds a new packet from them reproduces the received packet up to where it read; the payload types this does not hold for (introduction payloads with non-canonical flag bytes, authentication payloads with over-long keys) are named.", "quantifier": "every received byte string, every list of payload types without lossy flag bytes, every cursor position", "why_tests_cant": "all received byte strings, including ones no serializer of this library wrote", "anchors": ["rust_ipv8/src/serialization/mod.rs: Packet::add, next_payload", "rust_ipv8/src/payloads/"]}
{"id": "C57", "title": "Both byte orders of bincode round-trip", "statement": "Every payload written with the big-endian (the library's own) or the little-endian bincode configuration reads back in the same byte order; whether it can be written and its length do not depend on the byte order; headers written little-endian can be read by nobody.", "quantifier": "every payload value, both byte orders, every suffix", "why_tests_cant": "all values", "anchors": ["rust_ipv8/src/serialization/mod.rs", "rust_ipv8/src/serialization/bits.rs", "rust_ipv8/src/networking/address.rs"]}
{"id": "C58", "title": "Swallowed messages are logged, once, under their name", "statement": "A message with a reserved legacy type to a registered community logs exactly one warning naming the legacy message and the sender; no other packet logs a warning; the name determines the type; a packet never causes more than one of: a callback, a warning.", "quantifier": "every registration history, packet and address", "why_tests_cant": "all histories and packets", "anchors": ["rust_ipv8/src/community/mod.rs: Community::receive, CommunityRegistry::forward_message"]}
{"id": "C59", "title": "Concurrent creation sets the thread pool up once", "statement": "Any number of threads may call IPv8::new at the same time: the global thread pool is built by exactly one of them with its own thread count, no call gets past the set-up before the builder has answered, the builder's error reaches exactly one caller, a call panics only if the builder panicked, no call is deadlocked and each returns after a bounded number of its own steps.", "quantifier": "every number of concurrent calls, every configuration, every interleaving with starts and drops of instances, every answer of the pool builder and of the operating system", "why_tests_cant": "a test runs one or a few interleavings with the process-global Once already used by earlier tests", "anchors": ["rust_ipv8/src/lib.rs: IPv8::new, THREADPOOL_START"]}
{"id": "C60", "title": "Sockets are neither leaked nor shared", "statement": "The UDP sockets bound by a process are at every time exactly those owned by a call between its two binds, by live instances and by listening threads, and pairwise not in conflict; a failing IPv8::new closes what it had bound; at most one live instance has a given non-zero sending port (so one with the default configuration), and start closes the sending socket so that port is free again.", "quantifier": "every interleaving of creations, failures, starts, drops and ends of listening threads, every conflict rule of the operating system", "why_tests_cant": "tests cannot enumerate failure points and interleavings of several instances", "anchors": ["rust_ipv8/src/lib.rs: IPv8::new, IPv8::start", "rust_ipv8/src/networking/mod.rs: NetworkSender::new, NetworkReceiver::new"]}
{"id": "C61", "title": "Instances share the thread pool and nothing else", "statement": "Running instances of one process behave as they would alone: what each delivers depends only on its own receivers, datagrams and steps. At most threadcount receiver calls run at any time over all instances. With at least one thread, if receivers neither panic nor block, no instance is deadlocked by the load on others and each delivers everything it was notified of. If receiver calls that do not return occupy all threads, no receiver of any instance is called again.", "quantifier": "every number of instances, their receivers and traffic, every thread count and every schedule of listening threads and pool threads", "why_tests_cant": "scheduling of the shared rayon pool over several instances cannot be enumerated by tests", "anchors": ["rust_ipv8/src/networking/mod.rs: NetworkReceiver::listen (receivers.par_iter().for_each)", "rust_ipv8/src/lib.rs: IPv8::new (ThreadPoolBuilder::build_global)"]}
{"id": "C62", "title": "Only what was sent arrives, in any network", "statement": "In a network of nodes that loses, duplicates, delays and reorders datagrams and carries foreign traffic, a receiver is only called with datagrams sent to its node before, with their source address. Without duplication by the network at most once per datagram sent; without loss and duplication, the datagrams sent to a node are exactly those under way, queued and handed over. A community is only called for datagrams with its mid and a non-reserved type.", "quantifier": "every number of nodes, every interleaving of sends, foreign traffic, losses, duplications, deliveries and steps of all threads", "why_tests_cant": "network schedules with faults are unbounded", "anchors": ["rust_ipv8/src/networking/mod.rs: NetworkSender::send, NetworkReceiver::listen", "rust_ipv8/src/community/mod.rs: CommunityRegistry::forward_message"]}
{"id": "C63", "title": "Verified messages are authentic", "statement": "If a packet that is no forgery pops its header, carries the key pk and verifies, then the holder of pk signed a message with exactly that header, authentication payload and the payloads the receiver goes on to read (with the payload types agreed for that header). In a network this holds for every community call, and the message was signed for that community's mid.", "quantifier": "every received packet, every set of signed messages, every agreement on payload types, every network execution", "why_tests_cant": "quantifies over all attackers' packets and all protocols built on the crate", "anchors": ["rust_ipv8/src/serialization/mod.rs: PacketDeserializer::verify, next_payload", "rust_ipv8/src/crypto/signature.rs: verify_raw", "rust_ipv8/src/community/mod.rs: CommunityRegistry::forward_message"]}
{"id": "C64", "title": "The cursor moves by the size of the value, not by what was read", "statement": "After a successful next_payload of any payload type, with any codec, the cursor has moved by the number of bytes the returned value would be written with. Hence it points behind what was read exactly when what was read is as long as what would be written. That is so for all types of the crate but authentication payloads and for derived structs; for a struct with a map it is so exactly when no key is repeated on the wire (later values win, and the cursor stays inside the map otherwise, never beyond it); maps the API wrote itself read back identically; a hand-written codec can push the cursor beyond the packet, and the next read then panics.", "quantifier": "all payload types (any Serialize/Deserialize), all packets and cursor positions, all key and value types of maps", "why_tests_cant": "A test reads back what the same code wrote, where both lengths agree; repeated keys and foreign codecs come from other senders and from user code, over unboundedly many types.", "anchors": ["rust_ipv8/src/serialization/mod.rs: PacketDeserializer::next_payload"]}
{"id": "C65", "title": "Hostile lengths cost no more than the packet is long", "statement": "A value read from a packet contains no more vector elements, string bytes and raw bytes (at all depths together) than bytes of the packet were read for it, so a length field cannot announce more than is sent; and when reading a vector fails, at most as many elements were read before the failure as there are bytes. This holds for every payload struct whose vector elements take at least one byte; for vectors of zero-size elements eight bytes can hold a vector of any length below 2^64.", "quantifier": "all payload structs over the supported field types, all packets, all announced lengths, both byte orders", "why_tests_cant": "The space of length fields is 2^64 per vector and vectors nest; tests with large hostile lengths would not terminate if the property failed.", "anchors": ["rust_ipv8/src/serialization/mod.rs: PacketDeserializer::next_payload", "rust_ipv8/src/serialization/varlen.rs: VarLen16, VarLen32, VarLen64", "rust_ipv8/src/serialization/rawend.rs: RawEnd"]}
{"id": "C66", "title": "The life of a socket is orderly", "statement": "Whatever an application does with NetworkSender, NetworkReceiver and IPv8 objects (create, add receivers, send, take apart, put together, start, drop, any number of them) and whatever the network delivers: receivers are called only through a receiving socket that was started; exactly those receivers are called that were added to that object before start; each is called with the datagrams that arrived at that very socket since it was bound, those that came before start included, in order of arrival, without gaps or repetitions, cut to the configured buffer size; a datagram reaches at most one socket; and nothing happens any more to a closed socket.", "quantifier": "every sequence of API calls, arrivals, thread steps and drops, any number of objects, any addresses", "why_tests_cant": "a test runs one order of calls with one socket; the property quantifies over all interleavings of object life cycles and arrivals", "anchors": ["rust_ipv8/src/networking/mod.rs: NetworkSender, NetworkReceiver::new, start, listen, add_receiver", "rust_ipv8/src/lib.rs: IPv8::new, start"]}
{"id": "C67", "title": "Replies to a packet's source address reach nobody", "statement": "Every datagram sent through a NetworkSender carries the address of that sender's socket as its source, and only an open sender sends; a datagram sent back to that address while the socket is open changes nothing in the process (no receiver is ever called through a sending socket), a datagram that reaches no open socket changes nothing either, and after IPv8::start nothing is ever sent through that instance's sending socket again.", "quantifier": "every history of a process, every sender, every datagram", "why_tests_cant": "tests send from one socket and listen on another and never look at what happens to answers; 'never' ranges over all continuations", "anchors": ["rust_ipv8/src/networking/mod.rs: NetworkSender::send, NetworkSender::new", "rust_ipv8/src/lib.rs: IPv8::start"]}
{"id": "C68", "title": "Failures are told apart", "statement": "Every fallible call fails with an error that says why: reading a header reports the end of the packet exactly when there are fewer than two bytes, or the right version and fewer than 23 bytes, and 'No valid header type could be determined' exactly when the first two bytes are not a known version; forward_message passes that error on, reports an unknown mid as unknown community, and otherwise only the community's own error; receive without a message type reports that; Packet::new reports the header error only; adding a payload fails only with the IPv6 message or the message naming the length prefix that is too small; reading a payload of the crate fails only with the end of the packet (authentication payloads also with the message about the key prefix); a user-defined payload only with the errors of its fields; key construction reports a failed generator and a rejected key differently; views of the wrong size report a conversion error.", "quantifier": "every packet, cursor, header, payload value and payload type, key material, registry and community", "why_tests_cant": "error kinds depend on all inputs; callers can only branch on the error", "anchors": ["rust_ipv8/src/serialization/mod.rs: Packet, PacketDeserializer", "rust_ipv8/src/serialization/header.rs: Header", "rust_ipv8/src/serialization/varlen.rs", "rust_ipv8/src/networking/address.rs", "rust_ipv8/src/community/mod.rs: Community::receive, CommunityRegistry::forward_message", "rust_ipv8/src/crypto/signature.rs: KeyPair", "rust_ipv8/src/util.rs: as_fixed_size"]}
{"id": "C69", "title": "Detached and attached signatures agree", "statement": "sign_packet and sign give the 64 bytes that Packet::sign appends; verify_packet and verify_raw accept them under the signer's public key; and for every signature, right or wrong, verify_packet answers as adding the signature to the packet and calling verify_with does.", "quantifier": "every packet, key pair, public key and 64-byte signature", "why_tests_cant": "all messages and signatures", "anchors": ["rust_ipv8/src/crypto/signature.rs: sign_packet, sign, verify_packet, verify_raw, verify", "rust_ipv8/src/serialization/mod.rs: Packet::sign, PacketDeserializer::verify_with"]}
{"id": "C70", "title": "A community is reachable by its key", "statement": "A peer's identity is the SHA-1 of its public key, 20 bytes, independent of address and flag; a packet whose header carries the hash of a public key reaches the community that uses that peer's identity as its mid (unless a later registration took the mid).", "quantifier": "every key, address, registry and packet body", "why_tests_cant": "all keys and registries", "anchors": ["rust_ipv8/src/community/peer.rs: Peer", "rust_ipv8/src/community/mod.rs: CommunityRegistry"]}
{"id": "C71", "title": "A listening thread is not disturbed by the rest of the process", "statement": "Once a NetworkReceiver or an IPv8 instance has been started, its listening thread depends on nothing but its own steps and the datagrams that reach its address: creating, using, starting, taking apart or dropping other senders, receivers and instances, other threads dying, and datagrams for other sockets change neither its receivers, its buffer size, its queue nor its progress, and its socket is closed only after the thread stopped by itself. Therefore delivery works in a busy process exactly as in C47: from start with at most one queued datagram, or from waiting with an empty socket, without panics and I/O errors and with arrivals spaced, every receiver gets everything that ever arrived, in order.", "quantifier": "all histories of a process with any number of senders, receivers, instances and threads, every interleaving, every operating system's bind and delivery rules", "why_tests_cant": "the interleavings of API calls, arrivals and threads are unbounded; tests run one instance at a time", "anchors": ["rust_ipv8/src/networking/mod.rs NetworkReceiver::start, listen", "rust_ipv8/src/lib.rs IPv8::start"]}
{"id": "C72", "title": "Signatures do not protect against replay", "statement": "Nothing is remembered between datagrams: the community calls made for a datagram depend only on its bytes, its source and the registered communities. So an authenticated message that was sent once can be sent again by anybody, any number of times and from any addresses; each copy makes the community be called with a packet that verifies and yields the same payloads. The crate itself never repeats: there are at most as many community calls as datagrams that arrived.", "quantifier": "all keys, messages with any payloads, any number of copies with any source addresses; all histories of arrivals and schedules", "why_tests_cant": "unbounded number of copies and histories; absence of state is a statement about all of them", "anchors": ["rust_ipv8/src/networking/mod.rs listen", "rust_ipv8/src/community/mod.rs CommunityRegistry::forward_message", "rust_ipv8/src/serialization/mod.rs PacketDeserializer::verify"]}
{"id": "C73", "title": "Queue size and poll interval do not change what is delivered", "statement": "Config::pollinterval and Config::queuesize have no observable effect as long as queuesize is not 0: whatever can happen under one configuration can happen, for the same arrivals, under every other. With queuesize 0 the node is deaf: nothing is ever taken from the socket and the listening thread can only end with an error. Without a poll interval a waiting thread sleeps until something happens to its socket.", "quantifier": "all configurations, listeners, arrival histories and schedules", "why_tests_cant": "all executions under all configurations are compared", "anchors": ["rust_ipv8/src/configuration.rs Config", "rust_ipv8/src/networking/mod.rs NetworkReceiver::start, listen"]}
{"id": "C74", "title": "Waiting for a listener", "statement": "join on the handle that NetworkReceiver::start / IPv8::start returns blocks exactly as long as the listening thread runs and never answers Ok: when it answers, the thread has panicked, and the answer does not change any more. One line was logged if polling or reading failed; nothing at all if a receiver panicked. A thread for which nothing fails is waited for forever.", "quantifier": "every listener, arrival history and schedule", "why_tests_cant": "all schedules and all points at which the thread can end", "anchors": ["rust_ipv8/src/networking/mod.rs NetworkReceiver::start, listen", "rust_ipv8/src/lib.rs IPv8::start"]}
{"id": "C75", "title": "Signed messages that do not fit the receive buffer", "statement": "A datagram longer than Config::buffersize is handed over cut off. What is handed over verifies under a key only if the holder of the key signed exactly what is left of it (so no proper part of a message of which only the whole was signed verifies), and never if the buffer has fewer than 64 bytes.", "quantifier": "every signature scheme, key, buffer size, datagram, arrival history and schedule", "why_tests_cant": "all lengths, buffers and histories; needs the signature scheme as a parameter", "anchors": ["rust_ipv8/src/networking/mod.rs listen", "rust_ipv8/src/serialization/mod.rs PacketDeserializer::verify, verify_with"]}
{"id": "C76", "title": "Concurrent IPv8::new calls are linearizable", "statement": "In a process in which any number of threads call IPv8::new, start instances and drop them concurrently, the successful calls might as well have been made one after the other, each at one moment between its beginning and its end (its last bind): that sequential history is possible as well and leads to the same instances, addresses and listeners. Failing calls are not like that: a call can fail although no one-at-a-time order of the calls makes it fail, because of a socket that another failing call held for a moment.", "quantifier": "every number of threads, every interleaving, every operating system's rules about conflicting binds", "why_tests_cant": "interleavings of unboundedly many calls", "anchors": ["rust_ipv8/src/lib.rs IPv8::new, start", "rust_ipv8/src/networking/mod.rs NetworkReceiver::new, NetworkSender::new"]}
{"id": "C77", "title": "Communities with state do not disturb each other", "statement": "In any history of add_community and forward_message calls on one registry, what happens to the communities registered under a mid m (results, callbacks, log lines, and the communities' own states) is exactly what would happen if all registrations and all messages with other mids were left out. The state of a community is the fold of its own messages, in call order, and no message changes the state of more than one community.", "quantifier": "all mids, all community implementations with any state type and any on_receive (including ones that fail), all histories of registrations and messages", "why_tests_cant": "A test checks a few interleavings of a few communities; non-interference quantifies over all communities, states and histories.", "anchors": ["rust_ipv8/src/community/mod.rs: CommunityRegistry::add_community, CommunityRegistry::forward_message, Community::on_receive"]}
{"id": "C78", "title": "From send to the receiver, across processes", "statement": "In a system of any number of processes and a network that loses, duplicates, delays, reorders and readdresses datagrams, with foreign hosts sending anything: when a receiver is called with a packet, the same bytes (cut to the buffer size given to start) were handed to the network earlier, by send in one of the processes or by a foreign host, and arrived after that at the socket whose thread makes the call. Without address rewriting the address the receiver sees is the source of the datagram as sent, and the datagram was destined to the receiver's bound address. A process's datagram carries the address of an open sending socket. Without duplication nothing arrives more often than it was sent. From every reachable state in which a listening thread waits, a packet sent to its address can reach all its receivers. If nothing handed to the network is a forgery, everything accepted under a key was signed by its holder.", "quantifier": "all numbers of processes, objects and threads, all interleavings of all their steps with all network behaviours, all packets", "why_tests_cant": "It ranges over all schedules of several processes and all behaviours of an unreliable network.", "anchors": ["rust_ipv8/src/networking/mod.rs: NetworkSender::send, NetworkReceiver::new, NetworkReceiver::start, NetworkReceiver::listen", "rust_ipv8/src/lib.rs: IPv8::new, IPv8::start", "rust_ipv8/src/serialization/mod.rs: PacketDeserializer::verify"]}
{"id": "C79", "title": "While datagrams keep coming, every one is delivered", "statement": "In every execution without end of a started receiver in which the machine is fair, nothing fails and no receiver panics: if datagrams never stop arriving, each of them is sooner or later handed to every receiver, in order and without a gap. A datagram that arrives in an empty socket is handed to every receiver even if nothing arrives after it. A datagram that was taken out of the socket reaches every receiver. When nothing arrives any more the thread comes to rest and every receiver has been called with everything that was taken.", "quantifier": "all infinite executions under weak fairness, all arrival patterns, all receivers and pool schedules", "why_tests_cant": "It is a liveness property: no finite run can refute or establish it.", "anchors": ["rust_ipv8/src/networking/mod.rs: NetworkReceiver::start, NetworkReceiver::listen"]}
{"id": "C80", "title": "Wire format of user-defined payloads", "statement": "A payload struct a user derives has one wire form, fixed by the types of its fields: integers big-endian (signed ones in two's complement), booleans as 0 or 1, characters as UTF-8, strings as an eight-byte byte count and UTF-8, Option as 0 or 1 and the value, Vec as an eight-byte count and the elements, arrays and structs as their parts, enums as the four-byte variant index and its parts, and the crate's own types in their formats. Packet::add appends exactly that form, or refuses (leaving the packet alone) a value that has none because of an IPv6 address or an over-long byte vector. next_payload returns v exactly when the packet holds the wire form of v at the cursor, moves the cursor just behind it, and fails exactly when the bytes there start with the wire form of no value of the type.", "quantifier": "every derivable type over the supported building blocks, every value, every packet, every cursor position", "why_tests_cant": "There are infinitely many types, values and byte strings; tests fix a few structs and their bytes.", "anchors": ["rust_ipv8/src/serialization/mod.rs Packet::add next_payload", "rust_ipv8/src/serialization/bits.rs", "rust_ipv8/src/payloads/mod.rs Ipv8Payload"]}
{"id": "C81", "title": "A busy process starves no listener of its datagrams", "statement": "In the whole endless life of a process, with any number of senders, receivers, IPv8 instances and listening threads created, used, started, taken apart, dropped, failing or panicking in any order: a started receiver whose own receivers do not panic and whose own system calls do not fail goes on listening for ever, its socket is never closed, and if the machine is fair to it every datagram that ever arrived at its socket since it was bound (also before start) is sooner or later handed to every one of its receivers, in order, while datagrams for it keep coming. A datagram that comes while its socket is empty is handed to all of them even if nothing follows. Nothing, not even fairness, is assumed about the rest of the process.", "quantifier": "all infinite lives of a process under weak fairness to the one thread, all other objects and threads, all arrival patterns", "why_tests_cant": "It is a liveness property of all infinite interleavings of all objects of a process.", "anchors": ["rust_ipv8/src/networking/mod.rs: NetworkReceiver::new, NetworkReceiver::start, NetworkReceiver::listen, NetworkSender::send", "rust_ipv8/src/lib.rs: IPv8::new, IPv8::start"]}
{"id": "C82", "title": "One pool thread is enough for everybody", "statement": "However many instances share the thread pool and however few threads it has (at least one): if receiver calls return or panic and the pool does not pass over an instance for ever, then while datagrams for that instance keep coming every one of them sooner or later reaches every one of its receivers, in order; a datagram that arrives while its socket is empty does so even if nothing follows; whatever it took out of its socket is handed to all its receivers. The other instances may be arbitrarily busy, fail and panic.", "quantifier": "all infinite executions of any number of instances on a pool of any size of at least one, all loads, strong fairness to the one instance", "why_tests_cant": "It is a liveness property over all infinite schedules of a shared pool.", "anchors": ["rust_ipv8/src/networking/mod.rs: NetworkReceiver::listen", "rust_ipv8/src/lib.rs: IPv8::new, IPv8::start", "rust_ipv8/src/configuration.rs: Config::threadcount"]}
{"id": "C83", "title": "Every panic of the reading API is known", "statement": "A call on a PacketDeserializer panics exactly in these cases: a header or payload read with the cursor past the end of the packet; reading an authentication payload, or verify, where the announced content is complete but shorter than 10 bytes or has the key prefix and is shorter than 74; verify_with on a packet shorter than 64 bytes. The cursor gets past the end only after verify or verify_with. So reading received bytes without checking signatures panics only at a malformed authentication payload.", "quantifier": "every packet content, every cursor position, every payload type (user-defined ones included), every history of calls", "why_tests_cant": "the set of packets, cursors and call histories is infinite; tests only show that some of them do not panic", "anchors": ["rust_ipv8/src/serialization/mod.rs:PacketDeserializer::{next_payload,peek_header,pop_header,skip_header,verify,verify_with}", "rust_ipv8/src/payloads/binmemberauthenticationpayload.rs"]}
{"id": "C84", "title": "Which datagrams can stop a node", "statement": "A node whose communities read headers and payloads of any types whose codecs do not panic and write no more than they read (so no authentication payloads) and check no signatures keeps listening whatever is sent to it (unless polling or reading the socket fails). A community that takes off the header and then calls verify, as the documentation suggests, can be silenced by anyone who knows its mid: a datagram of 25 bytes (header and two zero bytes) is the last one its listening thread ever handles. In general, a datagram on which a receiver panics is the last one handled.", "quantifier": "every set of communities with arbitrary adaptive reading code, every buffer size, every arrival history and schedule, every mid and unreserved message type", "why_tests_cant": "the property ranges over all datagrams an attacker can send and all schedules of the thread pool", "anchors": ["rust_ipv8/src/networking/mod.rs:NetworkReceiver::listen", "rust_ipv8/src/serialization/mod.rs:PacketDeserializer::verify", "rust_ipv8/src/payloads/binmemberauthenticationpayload.rs", "rust_ipv8/src/community/mod.rs:CommunityRegistry::forward_message", "rust_ipv8/tests/ipv8-community.rs"]}
{"id": "C85", "title": "Payloads with hand-written codecs, maps and other payloads inside", "statement": "An application may put into a payload struct, at any depth, types with codecs written by hand, skipped fields, maps and sets, and the crate's own payloads. If every such codec restores the values it has to write, what add accepts reads back (maps having the same keys and values, everything else identical), wherever it is in the packet, or at its end if the last field takes the rest of the packet. If the codecs write as much as they read and there are no maps, the cursor is just behind what was read; if they write no more than they read it stays within the packet, maps or not; if they do not panic, nothing does. All types of the crate but authentication payloads meet all of this; authentication payloads are restored and write no more than they read, but may write less and reading them may panic.", "quantifier": "every struct definition over arbitrary codecs, every value, every packet content before and after, every sequence of reads on arbitrary received bytes", "why_tests_cant": "A test fixes one struct and one codec; the claim is about all compositions of all codecs that meet a contract.", "anchors": ["rust_ipv8/src/serialization/mod.rs: Packet::add, PacketDeserializer::next_payload, Ipv8Payload", "rust_ipv8/src/payloads/*.rs: impl Serialize, impl Deserialize"]}
{"id": "C86", "title": "A receiver's panic harms only receivers registered after it", "statement": "When a packet is handed to the receivers and some of them panic, a receiver that is left out has a receiver registered before it that panicked: more precisely, the one registered just before it was left out too or panicked. The first receiver, and every one in front of which nobody panics, sees every packet taken. The dispatch never gets stuck and takes a bounded number of steps. Apart from leaving receivers out, every order and overlap of the calls is possible.", "quantifier": "every number of receivers, every way rayon splits the list of receivers into jobs, every interleaving of the jobs, every set of panics", "why_tests_cant": "the splitting depends on the load of the pool and the schedule on the OS; tests see a few of them", "anchors": ["rust_ipv8/src/networking/mod.rs: NetworkReceiver::listen (scope_fifo, par_iter, for_each)"]}
{"id": "C87", "title": "Reading takes time linear in the length of the packet", "statement": "Reading a header or a payload from received bytes makes a number of steps (primitive reads, element requests, and the primitives of the size pass that moves the cursor) that is at most a constant times the number of bytes left in the packet plus a constant, where the constants depend on the payload type only; this holds whether the read succeeds, fails or panics and whatever lengths the bytes announce. The only exception are derived types with a vector whose elements may take no bytes: there eight bytes cause as many steps as they announce, up to 2^64 - 1.", "quantifier": "every byte string, cursor position, byte order and payload type (crate types and derived ones)", "why_tests_cant": "hostile length fields range over up to 2^64 values; a test that meets the bad case does not end", "anchors": ["rust_ipv8/src/serialization/mod.rs: PacketDeserializer::next_payload", "rust_ipv8/src/serialization/varlen.rs", "rust_ipv8/src/serialization/rawend.rs", "rust_ipv8/src/serialization/header.rs", "rust_ipv8/src/payloads"]}
{"id": "C88", "title": "Recursive payload types, and how much stack reading one takes", "statement": "An application may derive payload types that contain themselves (lists, trees, types that contain each other). What is added to a packet of such a type is read back, with the cursor behind it, provided the reading thread's stack has room for as many nested calls as the value is deep; with less room, reading it aborts the receiver. Whatever is read, the cursor moves behind exactly the bytes that would be written for it. More stack never changes an answer. If every round of the recursion reads at least a byte, stack for a number of calls proportional to the bytes left in the packet is always enough; and no smaller bound will do, since for some types every n+1 byte packet of a certain form needs n+1 nested calls.", "quantifier": "every system of mutually recursive type definitions (structs, tuples, options, vectors, arrays, enums over any non-recursive type), every value, every packet content and cursor, every stack size", "why_tests_cant": "the types are the application's, and values are arbitrarily deep: a test has one type and one depth", "anchors": ["rust_ipv8/src/serialization/mod.rs: PacketDeserializer::next_payload", "rust_ipv8/src/serialization/mod.rs: Packet::add", "rust_ipv8/src/payloads/mod.rs: Ipv8Payload"]}
{"id": "C89", "title": "The threads of the pool never deadlock, but a slow receiver of one instance can hold up another", "statement": "Pool threads execute other jobs on top of the packet they wait for. Still, what each instance does is what it could do alone; never more receiver calls run than the pool has threads; as long as some instance is handing over a packet a pool thread can make a step, even with one thread; the pool makes at most 15n+11 steps per packet taken (n receivers), and when it has nothing left to do every packet taken was handed to every receiver in front of which nobody panicked; stacks do not grow with time. But with any number of threads, all but one idle, an instance whose receivers have all returned may take no further packet until a receiver of an unrelated instance returns.", "quantifier": "every number of pool threads, instances, receivers and datagrams, every choice of which thread takes which job when, every way of halving the receivers, panics included", "why_tests_cant": "which thread executes what on top of what depends on scheduling; a test sees a few interleavings and cannot show absence of deadlock or the bound on stacks", "anchors": ["rust_ipv8/src/networking/mod.rs: NetworkReceiver::listen (scope_fifo, spawn_fifo, par_iter().for_each)", "rust_ipv8/src/lib.rs: IPv8::new (ThreadPoolBuilder::build_global)"]}
{"id": "C90", "title": "Every packet gets through a busy pool, as long as there is an end to starting instances", "statement": "Waits of pool threads get buried under unrelated jobs and other instances may keep the pool busy for ever. Still, if the pool is fair (a thread in the middle of receivers goes on and its receivers return or panic; a thread that again and again finds that what it waits for is done stops waiting; no job is passed over for ever) and from some moment on no instance is started, then every listening thread that is handing over a packet comes out of it; so while datagrams for an instance keep coming every one of them sooner or later reaches every one of its receivers, in order, and one that arrives while the socket is empty does so even if nothing follows. One pool thread is enough. If instances are started without end it need not be so, however fair the pool is: a packet whose receivers have all been called may never be through.", "quantifier": "all infinite executions of any number of instances on a pool of any size of at least one, every load of the other instances (including their failures and panics), every way in which jobs are taken on top of waits, every way of halving the receivers", "why_tests_cant": "It is a liveness property over all infinite schedules; a test sees finite prefixes of a few, and the burial that could defeat it depends on scheduling.", "anchors": ["rust_ipv8/src/networking/mod.rs: NetworkReceiver::listen (scope_fifo, spawn_fifo, par_iter().for_each)", "rust_ipv8/src/lib.rs: IPv8::new (ThreadPoolBuilder::build_global)"]}
{"id": "C91", "title": "A message that is sent again and again gets through", "statement": "If a packet is passed to NetworkSender::send for the address of a listening node again and again, the network may lose, duplicate, delay and reorder datagrams as it likes as long as it does not lose every copy of this one, the machine of the node is fair, nothing fails there and no receiver panics, then every receiver of the node (and the community for the packet's mid) is called with the packet and the sender's address, arbitrarily often. No finite number of sends is enough for more than one call, even if the network delivers all of them.", "quantifier": "all infinite executions of a network of any number of nodes with fair-lossy links, all packets, senders, listeners, foreign traffic; for the negative part all finite numbers of sends", "why_tests_cant": "liveness over infinite schedules and unbounded loss; a test sees finitely many sends and one network", "anchors": ["rust_ipv8/src/networking/mod.rs: NetworkSender::send, NetworkReceiver::start, listen", "rust_ipv8/src/community/mod.rs: CommunityRegistry::forward_message"]}
{"id": "C92", "title": "Reading takes memory linear in the length of the packet", "statement": "Whatever bytes a peer sends and whether reading succeeds or fails, reading a header or a built-in payload from n bytes requests at most 4n plus a few bytes of heap memory in total, whatever the length fields in those bytes say; a VarLen64 makes serde reserve up to a fixed amount before a byte is seen, and only in reads that then fail or are long enough. For a payload type an application derives, the bound is linear with constants depending only on the type, unless it has a vector whose elements may be encoded in zero bytes: then eight bytes make the reader fill memory for any announced number of elements.", "quantifier": "all byte strings, both byte orders, all payload types of the crate and all derived types, all cursors, all sizes of types, all smallest vector capacities up to eight and all reserve limits of serde", "why_tests_cant": "no test can try all byte strings and types, and an allocation caused by a hostile length field only shows on the one input that has it", "anchors": ["rust_ipv8/src/serialization/varlen.rs: VarLen16::deserialize, VarLen32::deserialize, VarLen64", "rust_ipv8/src/serialization/rawend.rs: RawEnd::deserialize", "rust_ipv8/src/serialization/header.rs: Header::deserialize", "rust_ipv8/src/serialization/nestedpayload.rs: NestedPacket::serialize, NestedPacket::deserialize", "rust_ipv8/src/serialization/mod.rs: PacketDeserializer::next_payload"]}
{"id": "C93", "title": "Reading payloads until the first failure ends, exactly for types whose values take room", "statement": "A receiver that keeps calling next_payload, choosing each next type from what it has read so far, until it is content or a read fails, ends on every packet whatever the bytes, after no more payloads than there are bytes left, and in time linear in those bytes, if it only asks for types none of whose values can be added to a packet without making it longer; all payload types of the crate are such. For a type with a value that takes no room (an empty struct, a struct that is only a RawEnd) the loop ends on no packet at all. A message of payloads of one self-delimiting type is read back by the loop exactly, stopping at the end of the packet. Only authentication payloads may make it panic, and with those k payloads of 76 bytes may cost more than 38k(k+1) steps.", "quantifier": "every strategy of choosing types (as a function of what was read), every packet and cursor, every payload type built in or derived, every number of payloads", "why_tests_cant": "Termination on all inputs, for all strategies, and complexity are not observable by a finite number of runs.", "anchors": ["rust_ipv8/src/serialization/mod.rs: PacketDeserializer::next_payload", "rust_ipv8/src/serialization/rawend.rs: RawEnd", "rust_ipv8/src/payloads/binmemberauthenticationpayload.rs"]}
{"id": "C94", "title": "Writing takes linear time and memory, and a refused payload leaves no trace", "statement": "Writing a payload takes a number of calls on the serializer that is linear in the number of its elements, with constants that depend on its type only, whether it succeeds or fails; if no vector in the type has elements that may be empty on the wire it is linear in the bytes written. The vector bincode returns is allocated once, with exactly the right capacity. At most three bytes of memory are requested per byte written, and at most one per element of a payload that is refused. Packet::add that fails leaves the packet as it was, byte for byte and without a reallocation, even though bincode had been handed part of the payload before the failure. However a packet is built, with refusals in between, the memory its vector ever requests is at most four times its length plus a constant. Signing adds 64 bytes in at most 132 calls.", "quantifier": "every payload type built in or derived, every value, both byte orders, every list of payloads added with refusals in between, every smallest vector capacity of the standard library", "why_tests_cant": "Bounds on time and memory for all values, and the absence of effects of a failure at any point inside a value, cannot be established by running samples.", "anchors": ["rust_ipv8/src/serialization/mod.rs: Packet::new, Packet::add, Packet::sign", "rust_ipv8/src/serialization/nestedpayload.rs: Serialize", "rust_ipv8/src/serialization/header.rs: Serialize", "rust_ipv8/src/serialization/varlen.rs: Serialize", "rust_ipv8/src/networking/address.rs: Serialize"]}
{"id": "C95", "title": "The memory of a listening node does not grow with the traffic", "statement": "At every point of every execution a listening thread has in memory its receive buffer, the packet being handed out and one copy of it for each receiver currently running, and nothing else except packets receivers kept for themselves. So with receivers that drop their packets the memory never exceeds (2 + max 1 receivers) buffers, a bound that is attained and independent of how much arrives; when the thread ends for whatever reason all of it is freed; all it ever requested is one buffer, two copies of every packet taken and one copy per call. In a process with any number of instances on a pool of n threads, all of them together have at most two buffers per instance and n more. A receiver that keeps packets makes memory grow with every datagram.", "quantifier": "all listeners, receivers, queued datagrams, executions (arrivals, notifications, errors, panics, interleavings of receivers), all sets of instances and pool sizes", "why_tests_cant": "A leak shows only in long executions and particular interleavings; tests see finitely many.", "anchors": ["rust_ipv8/src/networking/mod.rs: NetworkReceiver::listen", "rust_ipv8/src/networking/mod.rs: Receiver::on_receive"]}
{"id": "C96", "title": "How the pool's threads execute receivers cannot be seen", "statement": "Take whole systems: any number of processes, each with any number of senders, receivers and instances, whose receivers are executed by a shared thread pool of any size that takes up jobs in any order and buries unfinished waits under other instances' jobs; and a network between them that loses, duplicates, reorders and readdresses. Every history of such a system, event by event, is a history of the simpler system of C78 in which packets are handed to receivers without regard to threads. So every guarantee about origin, addresses, counts, sockets and signatures holds whatever the pools do, and every pool by itself obeys the bounds of C89. And at no moment do more receivers run at the same time in a process, all its instances together, than its pool has threads. The pool of a process has the size it was started with for ever, whatever panics.", "quantifier": "all numbers of processes, pool sizes, objects, receivers, packets; all interleavings of all threads of all processes, the pools' scheduling decisions, and the network", "why_tests_cant": "Tests run one process on one machine with whatever schedule the pool happens to choose; the claim is about all schedules of all pools of all processes together", "anchors": ["rust_ipv8/src/networking/mod.rs: NetworkReceiver::start, listen, NetworkSender::send", "rust_ipv8/src/lib.rs: IPv8::new, IPv8::start"]}
{"id": "C97", "title": "A message sent again and again gets through whole systems", "statement": "Hand a message to the network again and again, from any process or foreign host. Let the network lose, duplicate, delay, reorder and (NAT) readdress it as it likes, as long as it does not lose every copy. If the addressed process has a fairly scheduled pool of at least one thread on which new instances are not started for ever, and nothing fails and nobody panics at the addressed listening thread, then every receiver of that thread is called with the message, cut to the buffer, as often as one likes. A community with the message's mid is called with the whole message if it fits the buffer, and if it was signed, `verify` says true and its payloads can be read back exactly. Nothing is assumed about other processes or other instances of the same process: they may be as busy as they like, fail and panic. Under the same assumptions the thread keeps its socket for ever; as long as datagrams keep being delivered for its address, every datagram that ever arrived in its socket (not only the repeated message) is handed to every receiver, the i-th arrival in the i-th call; and a message delivered only once, when the socket is drained, is handed over without anything coming after it.", "quantifier": "all endless executions of all systems of processes, pools, objects and networks that are fair in the stated sense; all messages, all counts", "why_tests_cant": "Liveness: no finite test can show that something happens in every fair endless execution; and tests do not control losses, NAT, and the pool's scheduling", "anchors": ["rust_ipv8/src/networking/mod.rs: NetworkReceiver::start, listen, NetworkSender::send", "rust_ipv8/src/lib.rs: IPv8::start", "rust_ipv8/src/community/mod.rs: forward_message"]}
{"id": "C98", "title": "Signature checks ask one question each, and the answer is only told", "statement": "verify asks the cryptography library at most one question (is the end of the packet a signature of everything before it, under the key in the authentication payload at the cursor?) and returns the answer; verify_with asks exactly that for the given key, or panics on packets shorter than a signature. However a receiver goes about a packet, what it comes to depends on at most as many answers as it called verify and verify_with, each about a prefix of the packet. Apart from the returned boolean the answer changes nothing: packet, cursor and panics after any history of calls are the same whether signatures are valid or forged, and the Python binding returns the same rest of the data. So a receiver that ignores the boolean reads forged messages like genuine ones.", "quantifier": "all packets, cursors, keys, histories of calls, receivers that decide adaptively what to read next; all behaviours of the cryptography library", "why_tests_cant": "Tests use one real library and a handful of packets; independence of everything else from the answers is a statement about all pairs of libraries and all call histories", "anchors": ["rust_ipv8/src/serialization/mod.rs: PacketDeserializer::verify, verify_with", "rust_ipv8/src/crypto/signature.rs: verify_raw", "rust_ipv8_in_python/src/borrowedbundler.rs"]}
{"id": "C99", "title": "Hand-written Deserialize implementations", "statement": "An application may write the Deserialize implementation of its payload by hand, as the crate does for its own. However such an implementation is programmed: (1) it only ever moves forward in the packet; (2) if it passes every error of an element on with `?`, the answer of next_payload, unless it is that bytes are missing, and the place the cursor moves to depend only on the bytes the payload takes: the same in every packet that agrees with this one up to there, while every packet that ends earlier gives an end-of-input error (an invalid-character error for a char cut short) and leaves the cursor; (3) no bytes make it panic unless its own code panics. All implementations of the crate, and all derived ones, are such programs; all payloads of the crate except the two introductions, and all derived payloads without RawEnd, fall under (2). An implementation that catches errors, as RawEnd does, need not have (2), and goes on in the middle of the element that failed.", "quantifier": "all programs over serde's visitor interface (requests for primitives, characters, byte strings, options, enums, tuples, sequences, nested implementations, caught errors, arbitrary pure code in between), all packets, cursors, continuations and truncations", "why_tests_cant": "A test fixes one implementation and some packets; this is about all implementations, all ways a packet can continue and all places where it can be cut", "anchors": ["rust_ipv8/src/serialization/mod.rs: PacketDeserializer::next_payload", "rust_ipv8/src/serialization/{bits,varlen,rawend,header,nestedpayload}.rs", "rust_ipv8/src/networking/address.rs", "rust_ipv8/src/payloads/*.rs"]}
{"id": "C100", "title": "Fairness can be had from every state, against every opponent", "statement": "From every state that the listening threads and the rayon pool of a process can reach (with at least one pool thread), the pool and the threads can go on without a panic or an error until nobody has anything to do. So every finite execution extends to an endless one in which no ready thread, no job and no notification is passed over for ever, and this even against an opponent who sees everything that has happened and again and again inserts arbitrary steps: starts of instances, datagrams, failing system calls, notifications without reason, panics, steps of chosen pool threads. In particular, whatever has happened, as long as nothing failed at an instance whose receivers do not panic, any endless sequence of further datagrams can be handed over completely to all its receivers.", "quantifier": "every pool size \u2265 1, every finite execution (any number of instances, receivers, packets and interleavings), every opponent (any function from histories to finite lists of steps), every endless sequence of datagrams", "why_tests_cant": "a test runs one schedule; the claim is about the existence of a continuation from every reachable state of every schedule, against every adversary, and it is what makes the fairness assumptions of the liveness claims (C90, C91, C97) satisfiable everywhere rather than in a chosen example", "anchors": ["rust_ipv8/src/networking/mod.rs: NetworkReceiver::listen, NetworkManager::start", "rust_ipv8/src/lib.rs: IPv8::start (thread pool)"]}
{"id": "C101", "title": "Hand-written Serialize implementations", "statement": "Adding a payload whose serialization is any terminating program (it hands over values, runs the serialization of parts, passes their errors on or catches them, may fail, panic, or read and change a state behind a shared reference) runs that program once and, if it returned Ok, once more in the state it was left in. The packet gains exactly what the second run handed over, in network byte order, if both runs succeeded; otherwise it is unchanged and the caller gets the first failure. Without a state the two runs agree, the intermediate buffer is allocated once with the exact size, and the call is the one all other claims speak of; with a state the buffer stays within a constant factor of what was counted or written. A program that passes errors on has written all its parts when add returns Ok; one that catches errors leaves in the packet what the refused parts had handed over. All serializers of the crate and derived ones are programs that pass errors on and have no state. Reading moves the cursor by what the freshly read value's program hands over: the next read starts where the reader stopped exactly if the sizes agree; past the end every read panics; if that program fails, the value is lost and the cursor stays.", "quantifier": "every serialization program, every state, every packet, every reader, every cursor position; for the crate's own: every value of every payload type, of every derived type, every header and signature", "why_tests_cant": "the set of Serialize implementations an application can write is infinite, and so are the states they can carry; tests exercise those of the crate on a few values, and never one that answers differently the second time", "anchors": ["rust_ipv8/src/serialization/mod.rs: Packet::add, PacketDeserializer::next_payload", "rust_ipv8/src/serialization/*.rs, payloads/*.rs, networking/address.rs, crypto/signature.rs: impl Serialize"]}
{"id": "C102", "title": "Fairness can be had in all processes at once, and then streams of messages get through whole systems", "statement": "From every state a system of processes, their pools and the network can have got into, the pools and listening threads can go on without a panic or an error until nobody anywhere has anything to do; and the system can go on for ever in such a way that in every process with at least one pool thread nobody is passed over for ever, whatever an opponent does who sees everything and again and again makes any finite number of steps of applications, network, foreign hosts and threads. In particular, from every such state, for a listening thread at which nothing went wrong so far and whose receivers do not panic: whatever endless sequence of messages applications of any processes send to it over existing sockets, there is a continuation in which each is sent, exactly these arrive in this order after what had arrived before, and every receiver is called with exactly these, in this order, every one of them sooner or later; if the thread belongs to an IPv8 instance and the messages are for its communities, every one is handed to its community whole and in order.", "quantifier": "every reachable state of every system of processes with any network rules; every opponent (every function of the whole past to finite lists of steps); every endless sequence of packets, senders and addresses", "why_tests_cant": "it is about the existence of endless executions from every reachable state, against every strategy of the environment; tests see finitely many steps of a few executions", "anchors": ["rust_ipv8/src/networking/mod.rs: NetworkReceiver::start, listen, NetworkSender::send", "rust_ipv8/src/lib.rs: IPv8::new, IPv8::start"]}
{"id": "C103", "title": "Memory shared by receivers and communities", "statement": "Receivers may share memory with each other and with other parts of the application, through locks or atomics, and so may communities. Whatever the schedule: whenever no receiver of an instance is at work, the memory is one that comes about when the datagrams read so far are dealt with one after the other in the order of arrival, for each of them every receiver once, the next one only when all receivers have returned; only the atomic sections of the receivers for one and the same datagram are mixed with each other (and with changes made elsewhere). Every memory that can come about in this way does come about for some schedule, so that two receivers which read and write a counter in two sections can lose a count. If receivers do not disturb each other, the memory does not depend on the schedule; with one receiver, e.g. one that hands messages to the registry, it never does: the communities' handlers are executed one after the other, each to its end, in the order in which the messages arrived. Changes by others that receivers do not see can be thought of as made afterwards. The same holds for every instance in systems of any number of processes and instances.", "quantifier": "every type of memory; all receivers' programs over it (any number of atomic sections, depending on what they see); all histories of datagrams; every schedule of pool, receivers and the rest of the application", "why_tests_cant": "data races and orderings over all schedules and all programs of the receivers; a test sees the schedules it happens to get", "anchors": ["rust_ipv8/src/networking/mod.rs: listen, Receiver, NetworkReceiver::add_receiver", "rust_ipv8/src/community/mod.rs: CommunityRegistry::forward_message"]}
{"id": "C104", "title": "Receivers that panic in the middle of their work", "statement": "At every moment, whatever the schedule, also while receivers are at work and when some of them panic half-way through what they do with shared memory: the datagrams before the one read last have been dealt with one after the other, in the order of arrival, each by every receiver to its end, and none of them panicked there; for the last one every receiver has made some first part of its work (nothing if not yet called, everything if it has returned, everything up to the panic if it panicked). When a panic has ended the listening thread, no receiver is at work any more, every other receiver that was called for that datagram has finished (returned or panicked too), what was done up to the panic stays done and is neither completed nor undone, and from then on nothing but other parts of the application changes the memory. With one receiver and nobody else, between messages and after the end of the thread the memory is the result of calling it with one datagram after the other, where the panicking last call leaves its first half behind, and the thread ends for this reason exactly when the receiver panics on the datagram in question with the memory it then finds.", "quantifier": "every type of memory; all receivers' programs over it, with panics anywhere; all histories of datagrams; every schedule of pool, receivers and the rest of the application; every moment", "why_tests_cant": "where a panic leaves data half-changed depends on the schedule and the moment; tests see a few of either", "anchors": ["rust_ipv8/src/networking/mod.rs: listen, Receiver, NetworkReceiver::start", "rust_ipv8/src/community/mod.rs: CommunityRegistry::forward_message"]}
{"id": "C105", "title": "A pool of one thread makes receivers sequential", "statement": "With a `threadcount` of one, everything that receivers do is sequential, also if several instances run in the process: there is one sequence of rounds, each of which hands one packet of one instance to its receivers one after the other in the order of registration, every call being over before the next one begins; what can be seen of the calls, in the order of time, and the history of every listening thread are those of this sequence (plus the round in progress, or a packet that nobody has begun with); no receiver is left out, except in the last round of an instance that a panic stops. Therefore receivers need no locks against each other: at every moment at which no receiver is at work, memory that only receivers use is the result of running their whole programs one after the other in that order. With two threads all of this is false (two receivers at work at once, an increment lost). For any number of threads: the queues of the pool threads contain exactly the ranges of receivers that nobody has taken, each once, and whenever a packet is still to be handed out, some thread can go on with what its queues allow.", "quantifier": "all numbers of instances and receivers; every schedule of listening threads and of the pool's thread(s) that rayon's queues allow, every splitting of the ranges; all receivers' programs over every type of memory, with panics anywhere; every moment", "why_tests_cant": "a schedule that breaks the order would be one of very many; tests see some schedules of small cases", "anchors": ["rust_ipv8/src/networking/mod.rs: listen, NetworkReceiver::start", "rust_ipv8/src/lib.rs: IPv8::new (ThreadPoolBuilder::num_threads)", "rust_ipv8/src/configuration.rs: Config::threadcount"]}
{"id": "C106", "title": "What the log says about a listening thread", "statement": "In every execution of a listening thread the lines of its own that the crate logs are: two at the start (the address, the listener); then one line per poll that returned, followed by a second line exactly when something was to be read; and last one line of level error if polling or reading failed. The second lines count the datagrams taken (plus a read that failed). An error line is written exactly when `join` reports that `listen` failed; a thread that ends because a receiver panicked ends without any line of this crate. Two executions that differ only in the contents and the sources of the datagrams log the same lines of the thread. The warnings about legacy messages come one datagram after the other in the order of arrival, in any order within one datagram, exactly one per registry in which the addressed community is registered and none for other datagrams, with the legacy name and the source; there are never more than datagrams times registries; of a datagram only the first 23 bytes matter for that, and nothing of the payload is logged. Logging neither adds nor prevents executions.", "quantifier": "all listeners, registries, arrival histories, schedules of the pool including the order in which running receivers write, failures and panics at every moment; all datagrams", "why_tests_cant": "a log is only ever looked at for a few executions; the claim that something is never logged, or that a death leaves no trace, is about all of them", "anchors": ["rust_ipv8/src/networking/mod.rs: NetworkReceiver::new, start, listen", "rust_ipv8/src/community/mod.rs: Community::receive, CommunityRegistry::forward_message"]}
{"id": "C107", "title": "Receivers that wait for locks and for each other", "statement": "If every receiver call and every thread of the application takes its locks in one common order, gives them back and waits for nothing else, then nothing ever gets stuck: as long as a call is running, an application thread has something to do or a packet is being handed over, somebody can make a step without anything new from outside, with a pool of any size and also after panics (which poison and release locks); every way on without new input is finite, and it ends only when nothing runs, no lock is held and each receiver in front of which nobody panicked has been called with every packet taken from the socket. That every way on is finite needs no discipline. Conversely, if each of some calls or application threads waits for a lock one of them has, or for a condition that nobody outside of the group can make true (an instance with a call in the group only calls receivers with the packet it has), they wait for ever and their instances never take a datagram again; in particular a receiver must not wait for a later datagram of its own instance. If the calls that occupy all threads of the pool wait like this, no receiver of any instance is called any more, whatever arrives: with one thread one receiver that waits for another one is enough, while with two threads the same two receivers may meet. Two receivers that take two locks in opposite orders can stop an instance for ever.", "quantifier": "all pools, instances, receivers (programs over arbitrary memory with locks, conditions and panics), application threads, datagrams and schedules", "why_tests_cant": "deadlocks depend on the schedule, the size of the pool and on what else runs; a test that does not get stuck says nothing about other interleavings, and that something waits for ever cannot be observed", "anchors": ["rust_ipv8/src/networking/mod.rs: NetworkReceiver::listen, Receiver::on_receive", "rust_ipv8/src/lib.rs: IPv8::new (thread pool)"]}
{"id": "C108", "title": "Receivers that share memory behind a mutex", "statement": "If the receivers of all instances, and the threads of the application, touch the memory they share only with one mutex locked (locked once per call), then everything is as if the calls had been made one after the other: there is one order of all calls such that, whenever the lock is free, the memory and whether the lock is poisoned are what the calls done in turn in this order would leave, including what a call that panics in between leaves behind and what the calls after it do when they are told so. The order has each receiver's calls as they came, misses none (but perhaps those at work) and counts none twice, and it is only ever extended at its end, so calls that do not overlap come in the order in which they were made. A counter behind a mutex therefore counts right with a pool of any size, which without the mutex it does not (C105). If the lock is taken with `lock().unwrap()`, one panic of a receiver with the lock held is the end of the shared memory: it never changes again, and every later call of every receiver of every instance panics.", "quantifier": "all pools, instances, receivers and application threads that keep to the mutex, memory types, datagrams, schedules, and panics at every moment", "why_tests_cant": "lost updates and the aftermath of a panic depend on the interleaving; tests see a few of them, and whether some sequential order explains a concurrent history is a question about all", "anchors": ["rust_ipv8/src/networking/mod.rs: NetworkReceiver::listen, Receiver::on_receive", "rust_ipv8/src/lib.rs: IPv8::new (thread pool)"]}
{"id": "C109", "title": "Receivers that use the pool themselves", "statement": "The thread pool is rayon's global one, so a receiver (or a thread of the application) may divide its own work on it with `join`, `scope` or parallel iterators and wait for the result. If everybody takes locks in a common order, gives them back, and holds none while waiting for others in the pool, this never leads to a deadlock: as long as any job has not ended, some thread can make a step, also with a single pool thread, also after panics; without new packets or requests only finitely many steps are possible, and when none is, all jobs have ended, all queues are empty and all locks free. Whoever waits for a join goes on only when both halves have ended, and panics if one of them did. However the pool divides and moves the work, nothing is lost and nothing done twice. Holding a lock while waiting is not harmless: the waiting thread meanwhile executes other jobs on top of its stack, and if one of them wants that lock the thread, and all hand-overs on its stack, are lost for ever; two instances with one receiver each and a single lock suffice.", "quantifier": "all pools, numbers of threads, programs of receivers and application with joins at any depth, locks and panics, ways to divide the receivers, schedules", "why_tests_cant": "whether a waiting thread picks up the wrong job depends on a race between threads; tests practically never hit it, and freedom from deadlock is about all schedules", "anchors": ["rust_ipv8/src/networking/mod.rs: NetworkReceiver::listen, Receiver::on_receive", "rust_ipv8/src/lib.rs: IPv8::new (thread pool)"]}
{"id": "C110", "title": "A pool of one thread, with receivers that use it themselves", "statement": "With a thread count of one, receivers behave as if there were no threads: what is put into the pool from outside (packets of any number of instances, requests of the application) is begun in the order in which it was put in, nothing else is begun before it is through, also if receivers use the pool themselves, and the effect on shared memory, on poisoned locks and on who panics is that of plain calls one after the other, whatever the schedule. However the pool divides them, the receivers of a packet are called in the order in which they were added, as long as none panics. Locks may be taken in any order and, unlike with more threads (C109), held while waiting for work in the pool, as long as nobody takes a lock again that he or somebody waiting for him has: the pool thread never gets stuck, finishes by itself what it has begun, and when nothing can go on all work is done.", "quantifier": "all programs of receivers with joins at any depth, locks and panics, ways to divide the receivers, numbers of instances and outside threads, schedules", "why_tests_cant": "the claim is about all interleavings of outside threads with the pool and all programs; a test sees one", "anchors": ["rust_ipv8/src/lib.rs: IPv8::new (thread pool)", "rust_ipv8/src/configuration.rs: Config.threadcount", "rust_ipv8/src/networking/mod.rs: NetworkReceiver::listen"]}
{"id": "C111", "title": "Questions and answers get through", "statement": "If one process sends a question again and again until its receiver has been called with the answer n times, and another process, whenever its receiver has been called with the question, sends the answer at some time later to an address on which the first one listens, then the answer does come n times, although the network loses, duplicates, delays, reorders and readdresses as it likes, as long as it does not lose every copy of a message that is sent again and again. The same for chains of messages of any length through any number of processes, and for signed messages between communities, which each side can pop, verify and read exactly as they were made. From every state a system can get into, such conversations are possible between listening threads at which nothing went wrong.", "quantifier": "all systems of processes, schedules, losses and address translations, all lengths of conversations and all numbers of answers", "why_tests_cant": "liveness over infinite executions of several processes and a lossy network", "anchors": ["rust_ipv8/src/networking/mod.rs: NetworkSender::send, NetworkReceiver::listen", "rust_ipv8/src/community/mod.rs: CommunityRegistry::forward_message", "rust_ipv8/src/serialization/mod.rs: Packet::sign, PacketDeserializer::verify"]}
{"id": "C112", "title": "Who sets up the thread pool, and what if nobody can", "statement": "The global thread pool is set up once in a process, by the first IPv8::new or, if any NetworkReceiver of the process handles a datagram before that (or other code uses rayon), by rayon itself; whatever the schedule. If the calls of IPv8::new that have returned had no complaint about the pool, it has the number of threads that one of these calls asked for, and nothing about it ever fails later. If a datagram came first, it has the standard number of threads, and of all calls of IPv8::new exactly one fails; trying again always gets past this. If setting the pool up failed, that is told to one caller only: all other calls of IPv8::new succeed, but no listening thread of the process ever delivers anything, and each is killed by the first datagram it gets. No process delivers some datagrams and loses threads in this way as well. Nobody blocks for ever: each call and each hand-over is through after at most three steps of its own.", "quantifier": "all schedules of any number of concurrent IPv8::new calls and listening threads, all configurations, all times of arrival, all outcomes of starting threads, both ways in which versions of rayon report it", "why_tests_cant": "depends on the order of datagrams and calls and on failures of the operating system", "anchors": ["rust_ipv8/src/lib.rs: IPv8::new, THREADPOOL_START", "rust_ipv8/src/networking/mod.rs: NetworkReceiver::listen (scope_fifo)"]}
{"id": "C113", "title": "Python threads that use the binding", "statement": "Python threads that call borrowed_verify_signature and borrowed_create_signature at the same time do not disturb each other: whatever the schedule, the answers a thread has got are those its first calls give when each is made alone, and it keeps them. At most one thread at a time is in Python code or in Rust code that uses Python objects; signing keeps all others out of Python until it is through, verifying does not: any number of threads verify at the same time while one more runs Python code, and each gets through with it whoever has the interpreter lock. If no call panics when made alone, the process is never lost and from every state all calls can be answered. A call that panics when made alone is never answered; it can take the process, with all other threads, with it from every state in which it is next, and nothing happens after that.", "quantifier": "all numbers of threads, all lists of calls with all arguments, all schedules of the interpreter lock", "why_tests_cant": "tests see single schedules of single calls; when threads get the interpreter lock is up to the interpreter", "anchors": ["rust_ipv8_in_python/src/borrowedbundler.rs: borrowed_verify_signature (allow_threads), borrowed_create_signature"]}
{"id": "C114", "title": "The bytes of a message determine the message", "statement": "If the parties agree which payload types follow which header (mid and message type), two messages with the same bytes are the same message: same mid, message type and payload values. If all agreed types know where they end, no message is the beginning of another. The same bytes signed by two key holders, or the same signed packet, contain the same key, mid, message type and payloads, so a signature never covers two messages, or the same one for two communities. Without that agreement it is not so: the bytes do not tell the payload types nor where one payload ends.", "quantifier": "all agreements on types, all mids, message types, lists of payloads of all types, keys and signature schemes with 64-byte signatures", "why_tests_cant": "tests compare the bytes of single messages; that no other message has them needs all pairs of messages of all types", "anchors": ["rust_ipv8/src/serialization/mod.rs: Packet::new, Packet::add, Packet::sign", "rust_ipv8/src/serialization/header.rs: Header", "rust_ipv8/src/payloads/*: Ipv8Payload types"]}
{"id": "C115", "title": "Which packets read as the same message", "statement": "For all payload types but authentication and introductions: two packets in which a receiver reads the same header and payload values agree byte for byte as far as it has read. Two introduction requests read the same exactly if they agree in every byte but the flag byte and in the flag byte in bit 7 and in the connection type that bits 0 and 1 mean; responses likewise without bit 7; authentication payloads exactly if the first 74 bytes of their contents agree. Signed: two packets that are no forgeries and that a receiver accepts under a key as the same message (introductions included) are the same but for the 64 bytes of the signature. Unsigned introductions can be changed on the way into different packets that read the same.", "quantifier": "all packets, headers, lists of payloads of all types, keys, agreements on types, sets of signed messages", "why_tests_cant": "tests read single packets; that no other packet reads the same needs all pairs of packets", "anchors": ["rust_ipv8/src/serialization/mod.rs: PacketDeserializer", "rust_ipv8/src/payloads/introductionrequestpayload.rs: Deserialize", "rust_ipv8/src/payloads/introductionresponsepayload.rs: Deserialize", "rust_ipv8/src/payloads/binmemberauthenticationpayload.rs: Deserialize", "rust_ipv8/src/payloads/connectiontype.rs: decode"]}
{"id": "C116", "title": "A community can act on every signed message exactly once", "statement": "A community that checks the length of what it receives, reads header, authentication payload and, after `verify`, the payloads agreed for the header, keeps to messages of one key, and remembers the bytes that `verify` leaves, does all that at-most-once delivery needs: called with any packets that are no forgeries, in any order, it never panics, acts on no message twice, and acts on exactly the messages that one of the packets can be accepted as, all of them signed by the key holder. If no authentication payloads are among the agreed types, it does not panic on any packet at all, forgeries included. At every node of a network that loses, repeats and reorders, and however the pool orders its calls, the same holds of what was sent to the node; and if the key holder sends a message again and again over a fair network, then from some moment on the community has acted on it exactly once, for ever.", "quantifier": "all signature schemes, keys, agreements on types, sets of signed messages, lists of packets, runs of networks of any size, orders of calls, fair lossy lives", "why_tests_cant": "tests deliver a few packets once; that no other packet is a second copy of a message, and that every message arrives, needs all histories and all packets", "anchors": ["rust_ipv8/src/serialization/mod.rs: PacketDeserializer::{pop_header, next_payload, verify}", "rust_ipv8/src/community/mod.rs: CommunityRegistry::forward_message", "rust_ipv8/src/networking/mod.rs: NetworkManager"]}
{"id": "C117", "title": "One number is enough against replays", "statement": "A community that makes the checks of C116 and acts on a message only if its `TimeDistributionPayload` is higher than that of the last message it acted on needs no more memory than that number. Called with any packets that are no forgeries, in any order, it acts on messages of strictly increasing time, so on none twice, all signed by the key holder; on exactly those whose packet comes before every packet of a time at least as high; it remembers the highest time that came; packets that come again change nothing; and if no authentication payloads are among the agreed types it does not panic on any packet at all. At every node of a network that loses, repeats and reorders, and however the pool orders its calls, the same holds of what was sent to the node; and if the key holder sends a message again and again over a fair network, then from some moment on the community has acted on it or on a later one, and remembers a time at least as high, for ever.", "quantifier": "all signature schemes, keys, agreements on types, sets of signed messages, lists of packets and of replays, runs of networks of any size, orders of calls, fair lossy lives", "why_tests_cant": "tests replay a few packets; that no replay and no order makes it act twice or out of order needs all histories", "anchors": ["rust_ipv8/src/serialization/mod.rs: PacketDeserializer::{pop_header, next_payload, verify}", "rust_ipv8/src/payloads/timedistributionpayload.rs: TimeDistributionPayload", "rust_ipv8/src/community/mod.rs: Community::on_receive"]}
