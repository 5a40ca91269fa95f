{
 "claims": [
  {
   "property": "C01",
   "status": "proved",
   "theorems": [
    "C01_bit_positions",
    "C01_bits_roundtrip",
    "C01_byte_roundtrip",
    "C01_value",
    "C01_wire"
   ],
   "note": "in Verif/Props/Basic.lean | C01_bit_positions: Field `bit<i>` of `from_u8(b)` is the `2^i` bit of `b`. | C01_bits_roundtrip: Every `Bits` value survives `to_u8` and `from_u8`. | C01_byte_roundtrip: Every byte survives `from_u8` and `to_u8`. | C01_value: `to_u8` is the binary number written by the eight fields, `bit7` being the highest digit; `from_bools` puts its arguments in that order and `new` is zero. | C01_wire: On the wire a `Bits` value is that one byte, in either byte order, and reads back."
  },
  {
   "property": "C02",
   "status": "proved",
   "theorems": [
    "C02_decode",
    "C02_encode_bits",
    "C02_encode_injective",
    "C02_roundtrip"
   ],
   "note": "in Verif/Props/Basic.lean | C02_decode: What every pair of flag bits means; in particular `(false, true)` is `UNKNOWN`. | C02_encode_injective: Different connection types have different encodings, which are the documented ones. | C02_roundtrip: Decoding inverts encoding."
  },
  {
   "property": "C03",
   "status": "proved",
   "theorems": [
    "C03_read",
    "C03_wire"
   ],
   "note": "in Verif/Props/Basic.lean | C03_read: … and reads back, leaving the cursor just behind it. | C03_wire: A `VarLen16` of at most 65535 bytes is written as a big-endian `u16` length and the bytes."
  },
  {
   "property": "C04",
   "status": "proved",
   "theorems": [
    "C04_varlen16",
    "C04_varlen32",
    "C04_varlen64"
   ],
   "note": "in Verif/Props/Basic.lean | C04_varlen16: Adding a `VarLen16` fails exactly above 65535 bytes, without touching the packet. | C04_varlen32: Adding a `VarLen32` fails exactly above 4294967295 bytes, without touching the packet. | C04_varlen64: A `VarLen64` is never refused."
  },
  {
   "property": "C05",
   "status": "proved",
   "theorems": [
    "C05_read32",
    "C05_read64",
    "C05_wire32",
    "C05_wire64"
   ],
   "note": "in Verif/Props/Basic.lean | C05_read32: … and reads back. | C05_read64: … and reads back. | C05_wire32: A `VarLen32` is written as a big-endian `u32` length and the bytes … | C05_wire64: A `VarLen64` is written as a big-endian `u64` length and the bytes … (a Rust vector is never longer than the address space)"
  },
  {
   "property": "C06",
   "status": "proved",
   "theorems": [
    "C06_varlen16",
    "C06_varlen32",
    "C06_varlen64"
   ],
   "note": "in Verif/Props/Basic.lean | C06_varlen16: for `VarLen16`. | C06_varlen32: for `VarLen32`. | C06_varlen64: for `VarLen64`."
  },
  {
   "property": "C07",
   "status": "proved",
   "theorems": [
    "C07_read",
    "C07_write"
   ],
   "note": "in Verif/Props/Basic.lean | C07_read: Reading `RawEnd` succeeds on any bytes and captures all of them. | C07_write: Writing `RawEnd` writes its bytes and nothing else."
  },
  {
   "property": "C08",
   "status": "proved",
   "theorems": [
    "C08_any_six_bytes",
    "C08_ipv6",
    "C08_roundtrip"
   ],
   "note": "in Verif/Props/Basic.lean | C08_any_six_bytes: Any six bytes are an address: reading succeeds exactly on six bytes or more, the result is an IPv4 address, and its encoding is the six bytes read. | C08_ipv6: IPv6 addresses have no encoding. | C08_roundtrip: An IPv4 address is four octets and the big-endian port, and reads back from any buffer that starts with them."
  },
  {
   "property": "C09",
   "status": "proved",
   "theorems": [
    "C09_introduction_request",
    "C09_introduction_response",
    "C09_puncture",
    "C09_puncture_request"
   ],
   "note": "in Verif/Props/Basic.lean | C09_introduction_request: Introduction request. | C09_introduction_response: Introduction response. | C09_puncture: Puncture: refused (packet unchanged) exactly when one of the addresses is IPv6, else added. | C09_puncture_request: Puncture request."
  },
  {
   "property": "C10",
   "status": "proved",
   "theorems": [
    "C10_fields",
    "C10_length",
    "C10_read",
    "C10_wire"
   ],
   "note": "in Verif/Props/Header.lean | C10_fields: The documented fields of such a header. | C10_length: It is 23 bytes long. | C10_read: With anything before and behind it, peeking at the header gives it back, popping it gives it back and moves the cursor 23 bytes, and skipping it moves the cursor 23 bytes. | C10_wire: `Packet::new` of a PyIPv8 header is `0, 2, mid, type`."
  },
  {
   "property": "C11",
   "status": "proved",
   "theorems": [
    "C11_peek",
    "C11_pop",
    "C11_shape"
   ],
   "note": "in Verif/Props/Header.lean | C11_peek: Peeking at a header in arbitrary bytes: `Ok` exactly when at least 23 bytes are left and they start with `0, 2`, and then bytes 2..22 are the mid and byte 22 the type; otherwise `Err`. | C11_pop: Popping is peeking plus moving 23 bytes, and on `Err` nothing moves. | C11_shape: Every header that can be read has a 20-byte mid, a type below 256 and size 23."
  },
  {
   "property": "C12",
   "status": "partial",
   "theorems": [
    "C12_false",
    "C12_partial"
   ],
   "note": "Full claim is false of the code (C12_false: Header::serialize does not check the mid length and truncates the type). C12_partial: round trip for exactly the headers whose mid has 20 bytes and whose type fits a byte. | in Verif/Props/Header.lean | C12_false: is false of the code: `Packet::new` accepts headers that read back differently. Witnesses: a mid of 21 bytes (read back with a 20-byte mid and the last mid byte as type), a type of 256 (read back as 0), a size other than 23. | C12_partial: , what holds: a header accepted by `Packet::new` reads back unchanged exactly when its mid has 20 bytes, its type is below 256 and its size is 23. Missing from C12: all other headers, for which `Packet::new` should fail and does not."
  },
  {
   "property": "C13",
   "status": "proved",
   "theorems": [
    "C13"
   ],
   "note": "in Verif/Props/Header.lean | C13: `Packet::new` succeeds exactly when mid and type are present; the bytes are `0, 2`, the mid as given (whatever its length) and the type modulo 256."
  },
  {
   "property": "C14",
   "status": "proved",
   "theorems": [
    "C14_length",
    "C14_read",
    "C14_wire"
   ],
   "note": "in Verif/Props/Payload.lean | C14_length: It is 76 bytes. | C14_read: It reads back, and the cursor moves 76 bytes. | C14_wire: The wire form."
  },
  {
   "property": "C15",
   "status": "partial",
   "theorems": [
    "C15_false",
    "C15_partial"
   ],
   "note": "Full claim is false of the code (C15_false: reading can panic). C15_partial: panics exactly for complete contents shorter than 10 bytes, or with the key prefix and shorter than 74. | in Verif/Props/Payload.lean | C15_false: is false of the code: three bytes of announced content make the read panic, and so does a content that is only the key prefix. | C15_partial: , what holds: reading an authentication payload panics exactly when the announced content is complete and either shorter than 10 bytes, or starts with the key prefix and is shorter than 74 bytes. Missing from C15: those two cases, which should be `Err`."
  },
  {
   "property": "C16",
   "status": "proved",
   "theorems": [
    "C16"
   ],
   "note": "in Verif/Props/Payload.lean | C16: Exact outcome of reading an authentication payload where the rest of the packet is `r`: with `n` the announced length and `c` the announced content, * `Err` when prefix or content is cut short, * panic when `n < 10`, * `Err` when `c` does not start with the key prefix, * panic when it does and `n < 74`, * otherwise the keys are  ..."
  },
  {
   "property": "C17",
   "status": "partial",
   "theorems": [
    "C17_auth",
    "C17_false",
    "C17_partial"
   ],
   "note": "Full claim is false for authentication payloads (C17_false). C17_partial: every other type; C17_auth: exact behaviour for authentication payloads. | in Verif/Props/Packet.lean | C17_auth: for authentication payloads, exactly: with announced content length `n`, the decoder consumes `2 + n` bytes and the cursor moves 76, so they agree exactly for the honest length 74. | C17_false: is false for authentication payloads: 77 bytes are consumed, the cursor moves 76. | C17_partial: , what holds: the cursor is exact for every payload type except authentication payloads. Missing: authentication payloads, where it is false (`C17_false`, `C17_auth`)."
  },
  {
   "property": "C18",
   "status": "proved",
   "theorems": [
    "C18_read",
    "C18_wire"
   ],
   "note": "in Verif/Props/Payload.lean | C18_read: As the last payload of a packet it reads back identically. | C18_wire: The wire form of an introduction request with IPv4 addresses."
  },
  {
   "property": "C19",
   "status": "proved",
   "theorems": [
    "C19_read",
    "C19_tunnel_lost",
    "C19_wire"
   ],
   "note": "in Verif/Props/Payload.lean | C19_read: As the last payload of a packet it reads back identically, except that `tunnel` is `false`. | C19_tunnel_lost: The bytes written do not depend on `tunnel`, so the flag is lost. | C19_wire: The wire form of an introduction response with IPv4 addresses; `tunnel` does not occur."
  },
  {
   "property": "C20",
   "status": "proved",
   "theorems": [
    "C20_request_canonical",
    "C20_request_decode",
    "C20_request_ignores_bits",
    "C20_response_canonical",
    "C20_response_decode",
    "C20_response_ignores_bits",
    "C20_short"
   ],
   "note": "in Verif/Props/Payload.lean | C20_request_canonical: Re-adding a request that was read gives back the bytes it was read from exactly when flag bits 2..6 are zero and bits (0, 1) are not (false, true). | C20_request_decode: A request is read from 18 address bytes, a flag byte `f`, an identifier and anything else: the fields are those bytes, `advice` is bit 7 of `f`, the connection type is decoded from bits 0 and 1, and the cursor moves to the end of the packet. No other bit of `f` occurs in the result. | C20_request_ignores_bits: Flag bits 2..6 of a request do not influence the result. | C20_response_canonical: The same for responses, with flag bits 2..7. | C20_response_decode: Responses likewise: 30 address bytes, flags, identifier, rest. | C20_response_ignores_bits: Flag bits 2..7 of a response do not influence the result. | C20_short: Fewer than 21 bytes are no introduction request, fewer than 33 no response."
  },
  {
   "property": "C21",
   "status": "proved",
   "theorems": [
    "C21_puncture",
    "C21_puncture_any",
    "C21_puncture_request",
    "C21_puncture_request_any",
    "C21_time",
    "C21_time_any"
   ],
   "note": "in Verif/Props/Payload.lean | C21_puncture: Puncture payload: 14 bytes. | C21_puncture_any: Any 14 bytes are a puncture payload. | C21_puncture_request: Puncture request: 14 bytes. | C21_puncture_request_any: Any 14 bytes are a puncture request. | C21_time: Time: eight bytes, big-endian. | C21_time_any: Any 8 bytes are a time payload."
  },
  {
   "property": "C22",
   "status": "proved",
   "theorems": [
    "C22_any_depth",
    "C22_depth_limit",
    "C22_one_level"
   ],
   "note": "in Verif/Props/Payload.lean | C22_any_depth: Any depth: what `nest` wraps, `unnest` unwraps, with all headers. | C22_depth_limit: How deep one can nest: wrapping in `n + 1` packets works exactly while the packet next to the outermost one, 25 bytes larger per level, is at most 65535 bytes; otherwise it is an error. | C22_one_level: One level: a packet of at most 65535 bytes is nested as length and bytes, and reads back; a longer one is refused and the outer packet stays as it was."
  },
  {
   "property": "C23",
   "status": "proved",
   "theorems": [
    "C23",
    "C23_no_panic",
    "C23_signature"
   ],
   "note": "in Verif/Props/Packet.lean | C23: For every payload type and value there is a fixed string `w` (nothing, if the value is refused) such that adding the value to any packet appends `w` and touches nothing else; when it is refused the packet is unchanged. | C23_no_panic: No payload of the crate and no user-defined one makes `add` panic. | C23_signature: The same for signatures."
  },
  {
   "property": "C24",
   "status": "proved",
   "theorems": [
    "C24",
    "C24_last"
   ],
   "note": "in Verif/Props/Packet.lean | C24: A packet made of a header and any list of self-delimiting payloads: popping the header and reading the same types in the same order gives the same values, and the cursor ends at the end. | C24_last: The same with a last payload that may extend to the end of the packet (introduction messages, structs ending in `RawEnd`)."
  },
  {
   "property": "C25",
   "status": "proved",
   "theorems": [
    "C25",
    "C25_crate_fields",
    "C25_last"
   ],
   "note": "in Verif/Props/Fields.lean, Verif/Props/Packet.lean | C25: A user-defined struct without `RawEnd` that `add` accepts reads back identically anywhere in a packet. | C25_crate_fields: The puncture, puncture request and time payloads of the crate are written and read in packets just like derived structs with the same fields; so a struct with fields of these types is covered too: as field type take the struct's schema. | C25_last: A user-defined struct with `RawEnd` in last position reads back identically at the end of a packet."
  },
  {
   "property": "C26",
   "status": "proved",
   "theorems": [
    "C26"
   ],
   "note": "in Verif/Props/Packet.lean | C26: The size pass gives `n` exactly when `add` appends `n` bytes, and fails exactly when `add` is refused, with the same error."
  },
  {
   "property": "C27",
   "status": "proved",
   "theorems": [
    "C27_header",
    "C27_next"
   ],
   "note": "in Verif/Props/Packet.lean | C27_header: The same for headers; popping returns what peeking returns. | C27_next: A read that does not succeed changes nothing; no read changes the packet's bytes; a successful one never moves the cursor back."
  },
  {
   "property": "C28",
   "status": "proved",
   "theorems": [
    "C28"
   ],
   "note": "in Verif/Props/Packet.lean | C28: Whatever bytes were received, no sequence of header reads and payload reads (other than authentication payloads) panics; the packet is unchanged and the cursor stays inside."
  },
  {
   "property": "C29",
   "status": "proved",
   "theorems": [
    "C29",
    "C29_received"
   ],
   "note": "in Verif/Props/Packet.lean | C29: Over every history of calls, verification included, the cursor never moves back and the packet is always a prefix of what it was. | C29_received: In particular from the received bytes on."
  },
  {
   "property": "C30",
   "status": "proved",
   "theorems": [
    "C30",
    "C30_total"
   ],
   "note": "in Verif/Props/Crypto.lean | C30: Signing appends exactly 64 bytes, the signature of everything before. | C30_total: Signing never panics, and fails only when the library returns something that is not 64 bytes."
  },
  {
   "property": "C31",
   "status": "proved",
   "theorems": [
    "C31"
   ],
   "note": "in Verif/Props/Crypto.lean | C31: A packet signed with a key pair verifies with the public key of that key pair, and what is left to read is the packet as it was before signing, with the cursor untouched."
  },
  {
   "property": "C32",
   "status": "proved",
   "theorems": [
    "C32",
    "C32_last"
   ],
   "note": "in Verif/Props/Crypto.lean | C32: A message made of a header, the sender's authentication payload, self-delimiting payloads and a signature: its header pops, it verifies, and then exactly the payloads can be read. | C32_last: The same with a last payload that extends to the end of the packet: it does not contain the signature."
  },
  {
   "property": "C33",
   "status": "proved",
   "theorems": [
    "C33",
    "C33_unforgeable",
    "C33_verify"
   ],
   "note": "in Verif/Props/Crypto.lean | C33: `verify_with` answers true exactly when the packet ends in a valid signature, under the given key, of all bytes before it. | C33_unforgeable: If the packet is not a forgery under `pk` (should it end in a valid signature of something, then of something in `Signed`), an accepted packet is a message in `Signed` and a signature, and the message is what is left after `verify_with`. | C33_verify: `verify` answers true exactly when an authentication payload is read at the cursor and the packet ends in a valid signature under the public key in that payload."
  },
  {
   "property": "C34",
   "status": "proved",
   "theorems": [
    "C34",
    "C34_repeated"
   ],
   "note": "in Verif/Props/Crypto.lean | C34: `verify_with` panics exactly when fewer than 64 bytes are there, otherwise it returns a boolean, removes the last 64 bytes and leaves the cursor alone, valid signature or not. | C34_repeated: Any number of calls, with any keys: `n` calls remove `64 * n` bytes, and panic if that is more than there is."
  },
  {
   "property": "C35",
   "status": "partial",
   "theorems": [
    "C35_false",
    "C35_long_enough_partial",
    "C35_partial"
   ],
   "note": "Full claim is false of the code (C35_false: reads after verify panic). C35_partial and C35_long_enough_partial characterise exactly when. | in Verif/Props/Crypto.lean | C35_false: is false: on this packet the header pops, `verify` returns, and any payload read panics. | C35_long_enough_partial: In particular for the usual sequence header, `verify`, payloads on a packet of at least 163 bytes whose header and authentication payload are readable. | C35_partial: , what holds, for a cursor inside a received packet of length `n`. * `verify` panics exactly when reading the authentication payload panics (see `C15_partial`). * If there is no readable authentication payload, `verify` answers false and changes nothing. * Otherwise the cursor moves 76 bytes to `i` and 64 bytes are removed ..."
  },
  {
   "property": "C36",
   "status": "proved",
   "theorems": [
    "C36"
   ],
   "note": "in Verif/Props/Crypto.lean | C36: Whatever is added after signing (at least one byte), verification looks at a split `m ++ sig` of the extended packet in which `m` is strictly longer than the signed content."
  },
  {
   "property": "C37",
   "status": "proved",
   "theorems": [
    "C37",
    "C37_aligned"
   ],
   "note": "in Verif/Props/Crypto.lean | C37: Exactly the byte strings of the right length are accepted, unchanged. | C37_aligned: For a target type with an alignment, also the memory address matters; never a panic, and what is returned is always the whole input."
  },
  {
   "property": "C38",
   "status": "proved",
   "theorems": [
    "C38_checked",
    "C38_new",
    "C38_no_panic",
    "C38_publicKey"
   ],
   "note": "in Verif/Props/Crypto.lean | C38_checked: A key pair from `from_seed_checked` has the public key that was given, and what it signs verifies under that key. | C38_new: `new` succeeds exactly when generation succeeds and the generated document is accepted, and then the key pair is the one in that document. | C38_no_panic: Constructors return a key pair or an error, for every input and every state of the random generator; they never panic. | C38_publicKey: Every key pair has a public key (32 bytes by its type)."
  },
  {
   "property": "C39",
   "status": "proved",
   "theorems": [
    "C39",
    "C39_one_each",
    "C39_others"
   ],
   "note": "in Verif/Props/Community.lean | C39: Adding always succeeds, and what is registered under a mid is what was added last with it. | C39_one_each: A mid is stored at most once, so that replacing a community really drops the old one. | C39_others: Adding returns `Ok`, and never affects another mid."
  },
  {
   "property": "C40",
   "status": "proved",
   "theorems": [
    "C40"
   ],
   "note": "in Verif/Props/Community.lean | C40: A packet for a registered mid with an unreserved message type: `on_receive` of the community registered last under that mid is called exactly once and nothing else is, with the header, the whole packet and the cursor at its start, and the sender's address; its result is the result."
  },
  {
   "property": "C41",
   "status": "proved",
   "theorems": [
    "C41",
    "C41_count"
   ],
   "note": "in Verif/Props/Community.lean | C41: Reserved message types are acknowledged without calling the community. | C41_count: Exactly 17 of the 256 types are reserved; the introduction and puncture types are not."
  },
  {
   "property": "C42",
   "status": "proved",
   "theorems": [
    "C42",
    "C42_converse",
    "C42_mid_length"
   ],
   "note": "in Verif/Props/Community.lean | C42: If the header is invalid or no community has the mid, the result is an error and no community is called. | C42_converse: Conversely an error means one of: invalid header, unknown mid, or the community's own error; and forwarding panics only if the community itself does. | C42_mid_length: A community whose mid is not 20 bytes long never receives anything: forwarding calls, if anything, a community registered under a 20-byte mid."
  },
  {
   "property": "C43",
   "status": "proved",
   "theorems": [
    "C43",
    "C43_always",
    "C43_complete"
   ],
   "note": "in Verif/Props/Network.lean | C43: What was taken from the socket is the arrivals in order, up to what is still queued, each cut to the buffer size; and between datagrams every receiver has been called with exactly that sequence. | C43_always: At every moment, also in the middle of a datagram or after the thread ended, a receiver has been called with the taken datagrams in order, lacking at most the current one; nobody else is called. | C43_complete: If no receiver panics, every datagram that was taken is handed to every receiver unless the thread is still at it: the thread cannot end in the middle of a datagram."
  },
  {
   "property": "C44",
   "status": "proved",
   "theorems": [
    "C44",
    "C44_calls"
   ],
   "note": "in Verif/Props/Network.lean | C44: Whenever a datagram is taken, every receiver has been called with everything taken before and every one of those calls has returned. | C44_calls: A receiver is only ever called with the datagram taken last, and not a second time with it; and only calls that are running return."
  },
  {
   "property": "C45",
   "status": "proved",
   "theorems": [
    "C45"
   ],
   "note": "in Verif/Props/Network.lean | C45: The `i`-th datagram handed over is the `i`-th that arrived: unchanged if it fits the buffer, its first `buffersize` bytes otherwise; nothing of other datagrams is in it."
  },
  {
   "property": "C46",
   "status": "proved",
   "theorems": [
    "C46",
    "C46_causes",
    "C46_empty_fatal",
    "C46_errors",
    "C46_fatal",
    "C46_final",
    "C46_panic_fatal"
   ],
   "note": "in Verif/Props/Network.lean | C46: If polling and reading do not fail, every readiness event is backed by a new datagram, and no receiver panics, the listening thread never ends. | C46_causes: If the thread ended, then because of a failing poll, a failing read, a notification without a datagram, or a receiver that panicked on the datagram taken last. | C46_empty_fatal: So is a notification with nothing to read: when the thread is about to read and the queue is empty, reading ends it. | C46_errors: An error of the operating system can come at any time, whatever is queued, and is never survived: a failing `poll` ends a waiting thread and a failing read ends one about to read, with the queued datagrams left unread. | C46_fatal: Both happen. | C46_final: Nothing but arrivals happens after the thread ended. | C46_panic_fatal: The panic of a single receiver is fatal for all: once one panicked, no further datagram is ever taken, in no continuation."
  },
  {
   "property": "C47",
   "status": "partial",
   "theorems": [
    "C47_exact_partial",
    "C47_false",
    "C47_false_burst",
    "C47_lag",
    "C47_never_catches_up",
    "C47_one_each",
    "C47_partial",
    "C47_progress",
    "C47_start"
   ],
   "note": "Full claim is false of the code (C47_false: edge-triggered polling with one read per event starves coalesced datagrams). C47_exact_partial: exactly one queued datagram per pending readiness event is delivered; C47_partial: everything is delivered if no datagram arrives while another is queued. | in Verif/Props/Backlog.lean, Verif/Props/Network.lean | C47_exact_partial: , exactly what holds. Let `s` be reached by a smooth execution without receiver panics. Then, however thread and pool are scheduled and without further arrivals, * only finitely many steps are possible, * when no more are possible, exactly the first `promised s` queued datagrams have been handed over to every receiver, and the r ... | C47_false: is false: two datagrams that arrive before the thread polls raise one notification. The first is delivered, then the thread waits; the second stays in the queue through every continuation without further arrivals and unfounded notifications. | C47_false_burst: is false for every listener and every burst: if several datagrams arrive before the thread polls, then however thread and pool are scheduled they come to rest with only the first one delivered; such executions exist; and the others stay in the socket through every continuation without arrivals and unfounded notifications. | C47_lag: , the delay: from the moment the thread waits, `n` arrivals lead to at most `n` more datagrams being taken, and the ones that were left behind come first (C43). So with `k` left behind, a datagram that arrives is taken at the earliest when `k` more have arrived. | C47_never_catches_up: , how bad it is: when the thread waits with `k` datagrams left in the socket, at least `k` datagrams are in the socket at every later moment, whatever arrives and however the thread is scheduled (unless `poll` reports a notification that no datagram caused). | C47_one_each: , one event, one receive: every readiness event `poll` reports, backed by a datagram or not, leads to exactly one `recv_from`, before the next `poll`. (The one that is under way, if any, is the difference.) | C47_partial: , what holds: if at most one datagram is waiting when the thread starts and no datagram arrives while another one is still in the queue, then all of them are delivered: when thread and pool have nothing left to do, the queue is empty and every receiver has seen every datagram. Missing ... | C47_progress: , progress: unless the thread waits in `poll` and nothing is notified, it or the pool can make a step. | C47_start: , datagrams that are already waiting when the thread starts: it is notified once, so exactly the first of them is delivered, however thread and pool are scheduled, and the others stay in the socket until something new arrives."
  },
  {
   "property": "C48",
   "status": "partial",
   "theorems": [
    "C48_false",
    "C48_partial",
    "node_eq"
   ],
   "note": "Full claim is false of the code (C48_false: IPv8::new registers no receiver and start drops the registry). C48_partial: the started thread calls exactly the receivers that were added; node_eq/C52 for a receiver that forwards into the registry. | in Verif/Props/System.lean | C48_false: is false: whatever communities are added, if the application does not add a receiver of its own, no community is ever called, in no execution of the started thread. | C48_partial: , what holds: the started thread has the configured buffer size and calls exactly the receivers that were added, in that order. Missing: the communities; see `C48_false`. | node_eq: That is what one gets from the API: new, add the communities, add the forwarding receiver, start."
  },
  {
   "property": "C49",
   "status": "proved",
   "theorems": [
    "C49",
    "C49_answers",
    "C49_first",
    "C49_later"
   ],
   "note": "in Verif/Props/System.lean | C49: However many instances a process creates, the pool builder runs once, with the thread count of the first one. | C49_answers: The answers of all `IPv8::new` calls of a process, one after the other. The pool builder is asked by the first one only. If it is content, each call answers what binding its sockets answers; if it fails, the first call answers with its error and the others as if nothing had happened; if it panics, all calls ever made panic. | C49_first: The first one reports the builder's failure; and if it fails that way, all later ones go through all the same (with rayon's default pool). | C49_later: When the pool has been built, or could not be built, creating an instance fails only if a socket cannot be bound; the answer of the pool builder plays no role."
  },
  {
   "property": "C50",
   "status": "proved",
   "theorems": [
    "C50",
    "C50_infix",
    "C50_panics",
    "C50_raises",
    "C50_signed"
   ],
   "note": "Includes the exact set of inputs on which a Rust panic crosses into Python (C50, C50_panics). | in Verif/Props/Python.lean | C50: The complete behaviour of the binding on a message `data` (of any content), in terms of the outcome of reading an authentication payload at byte 23: * no header: `ValueError`; * no authentication payload: `(False, everything behind the header)`; * an authentication payload and at least 163 bytes ... | C50_infix: What is returned is a contiguous part of the input. | C50_panics: A Rust panic crosses into Python for a well-formed, unsigned message: header and authentication payload with less than 64 bytes behind them. | C50_raises: `ValueError` is raised exactly when there is no valid header, and nothing else is raised. | C50_signed: A message signed by the key in its authentication payload: `(True, body)`."
  },
  {
   "property": "C51",
   "status": "proved",
   "theorems": [
    "C51",
    "C51_agrees",
    "C51_raises"
   ],
   "note": "in Verif/Props/Python.lean | C51: The complete behaviour of the binding. | C51_agrees: What one binding signs the other verifies: a message with the key in its authentication payload comes back as `(True, body)`. | C51_raises: It never panics, and an exception is a `KeyError` and means that key or seed have the wrong length or do not belong together."
  },
  {
   "property": "C52",
   "status": "proved",
   "theorems": [
    "C52",
    "C52_history",
    "C52_last",
    "C52_no_panics",
    "C52_progress",
    "C52_signed"
   ],
   "note": "in Verif/Props/System.lean | C52: , end to end: when a fresh node has received such a packet and nothing else, in whatever execution that took it from the socket, then once the thread is between datagrams exactly that delivery has happened. | C52_history: , all messages: between two datagrams, the community calls that have been made are exactly those that forwarding the received datagrams in order makes, for every history of arrivals and every schedule. | C52_last: with a last payload that extends to the end of the packet. | C52_no_panics: The assumption of the next theorem, in terms of the communities: if no `on_receive` panics, then the node's receiver does not, whatever comes in and whatever the communities return. | C52_progress: , progress: if the communities do not panic and the datagram is the only one that arrives, then however thread and pool are scheduled, at most a fixed number of steps are possible after the arrival, and when no step is possible any more the delivery has happened. | C52_signed: , authenticated messages: for a message with the sender's authentication payload and signature, the community gets a deserializer on which popping the header and `verify` succeed, and which then yields exactly the other payloads."
  },
  {
   "property": "C53",
   "status": "proved",
   "theorems": [
    "C53",
    "C53_bind",
    "C53_buffer",
    "C53_hosts",
    "C53_list"
   ],
   "note": "in Verif/Props/Config.lean, Verif/Props/System.lean | C53: All default addresses are IPv4 and have a wire form; any two of them can be put into a payload; no bootstrap host has port 0. | C53_bind: A process that has no sockets yet can create an instance with the default configuration: the operating system only needs one port other than 8000 for the receiving socket. The receiving socket gets that port and the sending socket port 8000, both on all interfaces. | C53_buffer: With the default configuration a listening thread takes in datagrams of up to 2048 bytes unaltered. | C53_hosts: Every default bootstrap host is an address that a remote host can have, and there is one. | C53_list: The default hosts, in order; the sixth repeats the fifth, so there are 13 different ones."
  },
  {
   "property": "C54",
   "status": "proved",
   "theorems": [
    "C54",
    "C54_injective"
   ],
   "note": "in Verif/Props/Packet.lean | C54: If the encoding of `v` is a prefix of the encoding of `v'`, both of the same self-delimiting type, then `v = v'`. | C54_injective: Different values have different encodings."
  },
  {
   "property": "C55",
   "status": "proved",
   "theorems": [
    "C55"
   ],
   "note": "in Verif/Props/Packet.lean | C55: A payload of a self-delimiting type cut short anywhere is refused, whatever comes before it."
  },
  {
   "property": "C56",
   "status": "proved",
   "theorems": [
    "C56",
    "C56_auth_not_faithful",
    "C56_packet"
   ],
   "note": "in Verif/Props/Relay.lean | C56: Adding a payload that was read to any packet appends exactly the bytes it was read from: those between the cursor before and the cursor after. | C56_auth_not_faithful: Not faithful, in the worst way: an authentication payload with an over-long key is accepted, and relaying it changes the bytes. | C56_packet: A relay that pops the header, reads any faithful payloads, and builds a new packet from what it read reproduces the packet it received, up to the position it read to."
  },
  {
   "property": "C57",
   "status": "proved",
   "theorems": [
    "C57",
    "C57_address",
    "C57_header",
    "C57_last",
    "C57_same_length"
   ],
   "note": "in Verif/Props/ByteOrder.lean | C57: Every self-delimiting payload written with bincode in either byte order reads back in that byte order, whatever follows it. | C57_address: The little-endian form of an address: the octets in order, then the port low byte first (the byte string the unit test in `address.rs` expects). | C57_header: , the exception: a header written in little-endian order is not readable in any byte order. | C57_last: The others read back when nothing follows. | C57_same_length: Whether a value can be written, and how long it gets, does not depend on the byte order."
  },
  {
   "property": "C58",
   "status": "proved",
   "theorems": [
    "C58",
    "C58_names",
    "C58_one"
   ],
   "note": "in Verif/Props/Community.lean | C58: What is logged for a message to a registered community: one warning with the legacy name and the sender for a reserved type, nothing for the others. | C58_names: A name is logged exactly for the reserved types, and different reserved types have different names, so the log line identifies the type. | C58_one: Nothing is logged for packets that reach no community, and for every packet whatever there is at most one effect: one call, or one warning, or neither."
  },
  {
   "property": "C59",
   "status": "proved",
   "theorems": [
    "C59",
    "C59_progress",
    "C59_terminates",
    "C59_threads"
   ],
   "note": "in Verif/Props/Process.lean | C59: Any number of threads call `IPv8::new` at the same time, and instances come and go, in any interleaving. In every state of every such run: * the pool builder has been run or is being run by at most one call in total; * a call that got beyond the pool set-up did so after the builder answered, and the builder did not panic ... | C59_progress: no deadlock: Whatever state the process has reached, a call of `IPv8::new` that has not returned can take a step of its own, except when it waits at the `Once`; and then some call is running the builder, and goes on whatever the builder answers. | C59_terminates: termination: `n` calls of `IPv8::new` take together at most `4 * n` steps, in any interleaving; with `C59_progress`, every call returns as soon as the threads are scheduled. | C59_threads: thread count: The pool is built with the thread count of the configuration of one of the callers (so all instances of the process share it)."
  },
  {
   "property": "C60",
   "status": "proved",
   "theorems": [
    "C60",
    "C60_addresses",
    "C60_noLeak",
    "C60_onePerPort",
    "C60_start",
    "C60_taken"
   ],
   "note": "in Verif/Props/Process.lean | C60: In every state of every run, the sockets of the process in the table of the operating system are exactly the ones somebody owns: a call that has bound its receiving socket and not yet its sending one, the two of each live instance, and the receiving one of each listening thread ... | C60_addresses: configuration: The sockets of a live instance have the addresses its configuration asked for (port 0 stands for any). | C60_noLeak: nothing left: If every call has returned, no instance is alive and no listening thread runs, then no socket is bound, whatever failed on the way. | C60_onePerPort: one instance per port: At no time do two live instances have configurations with the same sending address, if its port is not 0. In particular at most one live instance has the default configuration. | C60_start: `start` gives the sending port back: Starting an instance closes its sending socket: that address can be bound again at once, and the instance can never send again. Its receiving socket stays bound, and now belongs to the listening thread. | C60_taken: port taken: While an instance with some sending address (port not 0) is alive, a call of `IPv8::new` that asks for the same one can only fail to bind; it then holds no socket, the receiving one it had bound is closed."
  },
  {
   "property": "C61",
   "status": "proved",
   "theorems": [
    "C61",
    "C61_blocked",
    "C61_bound",
    "C61_delivery",
    "C61_progress",
    "C61_unhindered"
   ],
   "note": "in Verif/Props/Pool.lean | C61: isolation: Run any number of instances in one process, on a pool of any size, in any interleaving. What happens at an instance is an execution of that instance alone. So everything proved about one listening thread (C43 to C47) holds for each of them, whatever the other instances receive and whichever of their receivers panic. | C61_blocked: a blocked pool: If receiver calls occupy all pool threads and do not return, no receiver of any instance is called any more, whatever arrives: a receiver that blocks affects the instances of others. With `threadcount = 1` one such call is enough. | C61_bound: bound: Never are more receiver calls in progress, over all instances, than the pool has threads. | C61_delivery: delivery: On a pool with at least one thread, in a process in which nothing fails: however threads and pool are scheduled, only finitely many steps are possible without a new arrival ... | C61_progress: no deadlock: On a pool with at least one thread, if no receiver panics and nothing fails: an instance that has something to do can do it, or the pool is full and some receiver call can return. | C61_unhindered: unhindered: Only beginning a receiver call ever waits for a pool thread. While it hands over a packet and until it has, an instance can do whatever it could do alone, if at each receiver call it begins a pool thread is still free; and if it begins none, however full the pool is ..."
  },
  {
   "property": "C62",
   "status": "proved",
   "theorems": [
    "C62",
    "C62_community",
    "C62_exact",
    "C62_once",
    "C62_sender"
   ],
   "note": "in Verif/Props/World.lean | C62: nothing from nothing: In every state of every execution of a network of nodes, with any loss, duplication, delay, reordering and foreign traffic: whatever a receiver of a node was called with is a datagram that was sent to that node before, cut to its buffer, and the source address of that datagram. | C62_community: communities: A community of a node that forwards into its registry is called only for a datagram that was sent to that node, starts with the header for that community's mid, and has a type that is not reserved; it gets that header, the datagram (cut to the buffer) and its source. | C62_exact: exactly once: If the network neither loses nor duplicates, the datagrams sent to a node are at every time those under way, those in its socket's queue and those taken from it, each once; and whenever the listening thread is between two datagrams, every receiver has been called exactly with the latter. | C62_once: at most once: If the network duplicates nothing, each receiver is called at most once for each datagram sent: its calls are some of the datagrams sent to the node. | C62_sender: senders: If nobody but this library sends, every call of a receiver comes from a successful `NetworkSender::send` to its node, which returned the length of the packet, and the address it is given is the one of the sending socket."
  },
  {
   "property": "C63",
   "status": "proved",
   "theorems": [
    "C63",
    "C63_network"
   ],
   "note": "in Verif/Props/Authentic.lean | C63: authenticity: Parties agree on the payload types of each message (`types`), and the holder of `pk` signs only messages that follow that. A receiver of any packet that is not a forgery pops the header, finds the key `pk` in the authentication payload, and `verify` answers true ... | C63_network: in a network: The same for a community of a node in a network with arbitrary foreign traffic, loss, duplication and reordering ..."
  },
  {
   "property": "C64",
   "status": "proved",
   "theorems": [
    "C64_exact_iff",
    "C64_exact_types",
    "C64_fails",
    "C64_map",
    "C64_map_false",
    "C64_map_roundtrip",
    "C64_moves_by_size",
    "C64_overshoot"
   ],
   "note": "in Verif/Props/Cursor.lean | C64_exact_iff: The cursor of a payload type is exact if and only if what can be read of it is as long as what would be written for it. | C64_exact_types: Every type the crate defines or derives, except authentication payloads, has an exact cursor in the sense used here. | C64_fails: For every payload type, with any codec: a failing read leaves cursor and packet alone, and the error is that of the codec on what is unread, or the one with which `add` would refuse the value that was read. | C64_map: Reading a map. The front of the unread part is a list of pairs `es`, encoded like a vector of pairs; the result maps every key to the value of its last pair; it has each key once. The cursor never moves past the end of those pairs, and stops exactly there if no key is repeated. | C64_map_false: The cursor law of C17 fails for maps: with a repeated key the cursor stays inside the map. | C64_map_roundtrip: A map that `add` accepts reads back identically anywhere in a packet, and the cursor is then behind it. | C64_moves_by_size: For every payload type, with any codec: after a successful read the cursor has moved by the number of bytes the value would be written with, whatever the codec consumed; the packet is untouched. | C64_overshoot: With a hand-written codec the cursor can pass the end of the packet, and then the next read panics: a successful read does not promise that reading on is safe."
  },
  {
   "property": "C65",
   "status": "proved",
   "theorems": [
    "C65",
    "C65_empty_elements",
    "C65_fails"
   ],
   "note": "in Verif/Props/Bounded.lean | C65: What is read from a packet has no more elements than bytes were read: the sender cannot announce more than it sends. For all payload structs whose vectors have no zero-size elements. | C65_empty_elements: needs its hypothesis: with zero-size elements eight bytes hold a vector of any length. | C65_fails: , failing reads. When reading a vector fails, whatever length was announced: either the length itself is not there, or the reader has read at most as many elements as there are bytes, and then failed on the next one."
  },
  {
   "property": "C66",
   "status": "proved",
   "theorems": [
    "C66",
    "C66_arrive",
    "C66_bind",
    "C66_bind_instance",
    "C66_call",
    "C66_closed",
    "C66_complete",
    "C66_life",
    "C66_one_socket",
    "C66_order",
    "C66_send",
    "C66_start",
    "C66_start_instance",
    "C66_waiting"
   ],
   "note": "in Verif/Props/Isolation.lean, Verif/Props/Node.lean | C66: In any history of a process, the life of every socket is one of: nothing; the life of a sender, of a receiver that is not started, or of a started one, while it is open; one of these and then `close`, once it is not open. | C66_arrive: A datagram that reaches an open socket arrives there, once, and nowhere else; no socket is opened or closed by it. | C66_bind: `new` succeeds exactly for addresses that fit the request and conflict with no open socket; the new socket has never been used before, and no other socket is affected. | C66_bind_instance: The same for an instance, which binds two sockets. | C66_call: When a receiver is called, the datagram it is called with has arrived before, at this very socket and after the socket was bound; the socket belongs to a `NetworkReceiver` that was started before and not closed; and the receiver had been added to it before that. | C66_closed: Closing is for ever: nothing happens any more to a socket that was closed, whatever the process does. | C66_complete: Nothing is lost between bind and `start`, or later: whenever a listening thread is between two datagrams, all its receivers were called with the same datagrams, and these together with what is queued are all that arrived at its socket since it was bound, in order. | C66_life: A life, perhaps closed. | C66_one_socket: A datagram reaches at most one socket. | C66_order: Receivers are called only by sockets that were started, the calls of a receiver come in the order in which the datagrams arrived at this very socket since it was bound (before or after `start`), without gaps or repetitions, each cut to the buffer size given to `start` ... | C66_send: `send` hands exactly the packet's bytes, with the socket's own address as source, to the network for the given address, through this socket; nothing else happens. | C66_start: `start` always succeeds; it makes a listening thread on the same socket, with the receivers that were added, in order, the buffer size of the configuration, and everything that arrived since the socket was bound still in the queue; the other sockets and objects are left alone. | C66_start_instance: The same for an instance; what differs is that its sending socket is closed. | C66_waiting: Before `start`, what arrives waits in the queue, in order."
  },
  {
   "property": "C67",
   "status": "proved",
   "theorems": [
    "C67_never_read",
    "C67_reply",
    "C67_source",
    "C67_start_ends_sending",
    "C67_unreached"
   ],
   "note": "in Verif/Props/Node.lean | C67_never_read: No receiver is ever called because of a sending socket: replies to the source address of a packet are read by nobody. | C67_reply: While the sending socket is open, a datagram sent to its address has no effect at all: no queue, no thread, no object of the process is any different. | C67_source: Only an open sending socket sends, and every datagram it sends has its own address as source. | C67_start_ends_sending: `IPv8::start` ends sending for good: after it, nothing is ever sent through that instance's sending socket. | C67_unreached: A datagram that reaches no open socket has no effect whatever."
  },
  {
   "property": "C68",
   "status": "proved",
   "theorems": [
    "C68_add",
    "C68_auth",
    "C68_forward",
    "C68_header",
    "C68_keys",
    "C68_new",
    "C68_read",
    "C68_read_derived",
    "C68_receive",
    "C68_too_long",
    "C68_v6",
    "C68_view"
   ],
   "note": "in Verif/Props/Errors.lean | C68_add: Adding any payload, user-defined ones included, fails with one of three messages only, and the packet stays as it was. | C68_auth: Reading an authentication payload: the end of the packet if the announced key is not all there, the message about the prefix if it is there and is no such key. | C68_forward: Forwarding a packet. The error of the header read is passed on unchanged; a readable header for a mid nobody registered is the unknown-community error; every other error is the community's own. In particular \"no mid\" and \"no message type\" are never reported for a packet from the wire. | C68_header: Reading a header. A packet that ends too early is reported as such; two bytes that are not a known version give the message about header types, however long the rest is. | C68_keys: Key construction: a failing random generator is a generation error, everything else a rejected key. | C68_new: `Packet::new` hides which field of the header was missing: its only error is the header error. | C68_read: Reading a payload of the crate other than an authentication payload: the only error there is is the end of the packet, and the cursor stays. | C68_read_derived: Reading a user-defined payload fails because the packet ends, or because of a byte that is no boolean, no option tag, no UTF-8, no character or no variant of the enum. | C68_receive: `receive` called by hand with a header that has no message type: the error for that, no callback, no log line. With a message type it never reports that error by itself. | C68_too_long: Values too long for their length prefix are refused with a message that says which prefix. | C68_v6: A payload with an IPv6 address anywhere is refused with the message about IPv6. | C68_view: A view of the wrong length or alignment is the conversion error."
  },
  {
   "property": "C69",
   "status": "proved",
   "theorems": [
    "C69",
    "C69_agrees"
   ],
   "note": "in Verif/Props/Crypto.lean | C69: A detached signature of a packet is 64 bytes and verifies, as a packet and as raw bytes, under the public key of the key pair. | C69_agrees: For every key, packet and signature, right or wrong: checking the detached signature gives the same answer as adding it to the packet and verifying that, and the same answer as checking the raw bytes."
  },
  {
   "property": "C70",
   "status": "proved",
   "theorems": [
    "C70",
    "C70_reached"
   ],
   "note": "in Verif/Props/Community.lean | C70: A peer's identity is the SHA-1 hash of its public key: 20 bytes, the same whatever its address and flag. | C70_reached: Who knows only the public key of a community can write packets for it: a packet with the hash of that key as mid reaches the community whose mid is the identity of a peer with that key, if no later one has the same mid."
  },
  {
   "property": "C71",
   "status": "proved",
   "theorems": [
    "C71",
    "C71_delivered"
   ],
   "note": "in Verif/Props/Isolation.lean | C71: A listening thread depends on nothing but its own steps and the datagrams that reach its address: whatever else the process does, the thread's state is what these alone make of it, its receivers and buffer size stay what they were at `start`, and it ends only after it stopped by itself. | C71_delivered: So delivery in a busy process is as in C47: let a listening thread have just been started with at most one datagram in its socket, or be waiting with an empty socket ..."
  },
  {
   "property": "C72",
   "status": "proved",
   "theorems": [
    "C72",
    "C72_at_most",
    "C72_no_memory"
   ],
   "note": "in Verif/Props/Replay.lean | C72: So signatures do not protect against replay: an authenticated message that its author sent once can be sent to a node by anybody, any number of times and from any addresses, and each copy makes the community be called; each time `verify` succeeds and the same payloads are read. | C72_at_most: But the crate itself repeats nothing: at every moment, no more community calls have been made than datagrams have arrived. | C72_no_memory: Nothing is remembered between datagrams: between two datagrams, the calls made so far are the calls for each handled datagram one after the other, and those for one datagram depend only on its bytes (cut to the buffer), its source and the registered communities."
  },
  {
   "property": "C73",
   "status": "proved",
   "theorems": [
    "C73",
    "C73_default",
    "C73_waiting",
    "C73_zero"
   ],
   "note": "in Verif/Props/Config.lean | C73: `queuesize` (if it is not 0) and `pollinterval` have no observable effect: whatever state, and whatever history of calls, is possible for some arrivals at all (with any configuration) is possible for the same arrivals under every configuration. | C73_default: The default configuration allows everything but timeouts. | C73_waiting: Without a poll interval a waiting thread stays asleep until something arrives, a notification comes without a datagram, or the call fails; with one, it does nothing but go back to `poll`. | C73_zero: With `queuesize` 0 a node is deaf: whatever arrives, nothing is ever taken from the socket, no receiver is called, and the only thing the listening thread can do is end with an error."
  },
  {
   "property": "C74",
   "status": "proved",
   "theorems": [
    "C74",
    "C74_final",
    "C74_forever",
    "C74_log"
   ],
   "note": "in Verif/Props/Join.lean | C74: `join` on what `start` returned blocks exactly as long as the thread runs, and never answers `Ok`: whenever it answers, the thread has panicked. | C74_final: The answer is final: once `join` can answer, no later step changes the answer. | C74_forever: A thread for which nothing fails is waited for forever. | C74_log: What has been logged when it answers: one line if polling or reading failed, nothing if a receiver panicked. So a listener that a receiver brought down leaves no line in the log."
  },
  {
   "property": "C75",
   "status": "proved",
   "theorems": [
    "C75",
    "C75_part"
   ],
   "note": "in Verif/Props/Truncated.lean | C75: A datagram longer than the receive buffer is handed over cut off. If what is handed over is no forgery under `pk` (should it end in a valid signature, then of something in `Signed`), it verifies under `pk` only if the holder of `pk` signed exactly what is left of it; with a buffer of less than 64 bytes, never ... | C75_part: , for a message of which only the whole was signed: no proper part of the signed packet verifies."
  },
  {
   "property": "C76",
   "status": "proved",
   "theorems": [
    "C76",
    "C76_failures",
    "C76_one_each"
   ],
   "note": "in Verif/Props/Linear.lean | C76: In every run of a process in which any number of threads call `IPv8::new` at the same time, start instances and drop them, the calls that succeed might as well have been made one after the other, each at the moment of its last step ... | C76_failures: Failures are different: a call can fail only because of another call that fails. Here the second call is bound to fail, as its sending port is taken, but until it does it holds port 6, and the third call cannot but fail at that moment. Yet as single steps the third call succeeds at any time: before the second call, and after it. | C76_one_each: The sequential history creates exactly one instance for every call that returned `Ok`: nothing is made up and nothing left out."
  },
  {
   "property": "C77",
   "status": "proved",
   "theorems": [
    "C77",
    "C77_fold",
    "C77_step"
   ],
   "note": "in Verif/Props/Stateful.lean | C77: Communities do not disturb each other: in any history of registrations and messages, what happens to the objects with mid `m` is what would happen if all registrations and messages with other mids were left out: same results, same callbacks, same log lines, and the same states at the end ... | C77_fold: So the state of a community is what its own messages make of it, one after the other, in the order of the calls: packets with its mid and a type that is not reserved, and nothing else. | C77_step: One call. A message changes the state of at most one object: the one registered last under the mid of its header, if the message type is not a reserved one; that object is called once, with its current state, its new state is what it says, and its result is the result. Otherwise no state changes and no object is called ..."
  },
  {
   "property": "C78",
   "status": "proved",
   "theorems": [
    "C78",
    "C78_at_most",
    "C78_authentic",
    "C78_delivery",
    "C78_flat",
    "C78_source"
   ],
   "note": "in Verif/Props/Cluster.lean | C78: Nothing comes from nowhere. In any history of any number of processes and a network that loses, duplicates, delays, reorders and readdresses ... | C78_at_most: If the network duplicates nothing, then what arrives anywhere was sent as often: for any bytes, the number of arrivals at all sockets of all processes together is at most the number of times these bytes were handed to the network. (And each arrival makes each receiver of that socket be called at most once: C66.) | C78_authentic: Signatures hold from end to end. If nothing that was handed to the network is a forgery under `pk` (when cut to the buffer size of the listening thread), then whatever a receiver of any process accepts under `pk`, however often and by whichever way it came ... | C78_delivery: And it gets there: from every reachable state of the system, if a process has a sender and another one (or the same) has a waiting listening thread whose socket the destination reaches, there is a way on in which the packet is sent and every receiver of that thread is called with it, cut to the buffer size, and with the address  ... | C78_flat: Without NAT boxes on the way: the address a receiver is called with is the source address of the datagram as it was handed to the network, and it was handed to the network for the address to which the receiving socket is bound. | C78_source: And what a process hands to the network has as its source the address of the sending socket, which is open at that moment."
  },
  {
   "property": "C79",
   "status": "proved",
   "theorems": [
    "C79",
    "C79_alone",
    "C79_rest",
    "C79_taken"
   ],
   "note": "in Verif/Props/Live.lean | C79: While datagrams keep coming, every single one is delivered: in every execution without end that is fair, without failures and without panicking receivers, in which datagrams never stop arriving, each datagram (number `i`, counting from the start) sooner or later is what each receiver is called with for the `i`-th time ... | C79_alone: A datagram that arrives in an empty socket is delivered to every receiver, whether or not anything arrives after it. | C79_rest: When nothing arrives any more, the thread comes to rest: from some moment on it waits in `poll` for ever, and every receiver has been called with everything that was taken. | C79_taken: A receiver that was not yet called with a datagram that was taken is called with it sooner or later."
  },
  {
   "property": "C80",
   "status": "proved",
   "theorems": [
    "C80",
    "C80_read",
    "C80_read_iff",
    "C80_read_last",
    "C80_reject"
   ],
   "note": "in Verif/Props/Wire.lean | C80: Adding a user-defined payload appends its wire form; a value that has none (an IPv6 address or a byte vector too long for its length field somewhere in it) is refused and the packet stays as it was. | C80_read: Whatever is read from a packet, its wire form is what the packet holds at the cursor, and the cursor moves just behind it. (Any type, `RawEnd` included.) | C80_read_iff: For a type without `RawEnd` this is all there is to reading: the result is `v` exactly when the packet holds the wire form of `v` at the cursor. | C80_read_last: With `RawEnd` in last position: the wire form at the end of a packet reads back. | C80_reject: A read from inside the packet is refused exactly when the bytes at the cursor start with the wire form of no value of the type; the cursor then stays where it was."
  },
  {
   "property": "C81",
   "status": "proved",
   "theorems": [
    "C81",
    "C81_alone",
    "C81_lives",
    "C81_taken"
   ],
   "note": "in Verif/Props/LiveNode.lean | C81: A process may do whatever it likes: as long as datagrams for the address of a listening thread keep coming, every single one that ever arrived there since the socket was bound reaches every receiver. That is, number `i` of the arrivals is sooner or later what each receiver is called with for the `i`-th time ... | C81_alone: A datagram that comes for a listening thread while its socket is empty reaches every receiver, whether or not anything comes after it. | C81_lives: The thread never ends: as long as its own receivers do not panic and its own system calls do not fail, nothing the rest of the process does closes its socket or makes it miss a step. | C81_taken: A receiver that was not yet called with something the thread took from its socket is called with it sooner or later."
  },
  {
   "property": "C82",
   "status": "proved",
   "theorems": [
    "C82",
    "C82_alone",
    "C82_taken"
   ],
   "note": "in Verif/Props/LivePool.lean | C82: One thread pool with a single thread is enough for any number of instances: if receiver calls return (or panic) and the pool does not pass over an instance for ever, then, as long as datagrams for that instance keep coming, every single one of them sooner or later reaches every one of its receivers, in order ... | C82_alone: A datagram that arrives at an instance whose socket is empty reaches all its receivers, whether or not anything arrives after it, and whatever the load on the pool. | C82_taken: What an instance took out of its socket is handed to all its receivers."
  },
  {
   "property": "C83",
   "status": "proved",
   "theorems": [
    "C83",
    "C83_cursor",
    "C83_history",
    "C83_reads"
   ],
   "note": "in Verif/Props/Panics.lean | C83: Every call on a deserializer, in every state, with every packet: it panics exactly in the cases listed in `PanicsOn`. | C83_cursor: The cursor only gets past the end when signatures are checked: without such calls the packet stays whole and the cursor inside, whatever was received and whatever is read; and `k` checks remove at most `64 * k` bytes. | C83_history: A history of calls panics exactly when some call in it meets one of the cases of `PanicsOn` in the state the calls before it left. | C83_reads: Hence a history without signature checks panics exactly when an authentication payload is read where the packet has a content that is too short for one."
  },
  {
   "property": "C84",
   "status": "proved",
   "theorems": [
    "C84_attack",
    "C84_happens",
    "C84_immune",
    "C84_last"
   ],
   "note": "in Verif/Props/Hostile.lean | C84_attack: One datagram of 25 bytes silences a node: if the community for a mid takes off the header and checks the signature of messages of an unreserved type, the datagram with that mid and type and two zero bytes is the last one the listening thread handles. Anybody who knows the mid can send it; no key is needed. | C84_happens: The attack happens: the hostile datagram is followed by another one, and the thread ends without having looked at that. | C84_immune: Communities that read headers and payloads of any type with an honest codec, but no authentication payloads, and check no signatures: whatever anybody sends, the listening thread of a node with such communities does not end, as long as polling and reading the socket do not fail. | C84_last: A datagram on which one receiver panics is the last one the thread ever handles: in every execution in which it was taken, nothing was taken after it, and the thread is not ready for more."
  },
  {
   "property": "C85",
   "status": "proved",
   "theorems": [
    "C85",
    "C85_auth_field",
    "C85_closed",
    "C85_cursor",
    "C85_derived",
    "C85_equal",
    "C85_fields",
    "C85_inside",
    "C85_last",
    "C85_no_panic",
    "C85_safe",
    "C85_skip"
   ],
   "note": "in Verif/Props/Composite.lean | C85: A payload struct of an application, with hand-written codecs, crate payloads and maps at any depth, that `add` accepts reads back from the packet, whatever else is in the packet, with every map in it having the same keys and values; the cursor is then behind it ... | C85_auth_field: Authentication payloads as fields are restored, write no more than they read and do not panic when written; but they may write less than was read, and reading them may panic. | C85_closed: The contracts are closed under composition: a composite type may itself be a field of another, or a key. | C85_cursor: If every hand-written codec writes as much as it reads, and there are no maps, then so does the struct: after reading one the cursor is just behind what was read. | C85_derived: The structs of C25 and C80 are among these: taken as a composite of the crate's building blocks, such a struct is written and read the same. | C85_equal: Without maps it reads back identical. | C85_fields: The types of the crate, and everything derived from them, may be used as fields: all of them but authentication payloads write as much as they read and never panic; those with an end of their own are restored wherever they are, the others at the end. | C85_inside: If no hand-written codec writes more than it reads, reading a struct (with or without maps) leaves the cursor within the packet. | C85_last: As the last payload of a packet the struct may end in something that takes the rest of the packet (`RawEnd`, an introduction request or response). | C85_no_panic: If no hand-written codec panics, adding a struct never panics, and reading one does not panic unless the cursor is past the end of the packet. | C85_safe: So if the hand-written codecs neither panic nor write more than they read, an application may read any sequence of such structs from any received bytes without a panic. | C85_skip: A field with `#[serde(skip)]` comes back if it has its default value."
  },
  {
   "property": "C86",
   "status": "proved",
   "theorems": [
    "C86",
    "C86_both",
    "C86_earlier",
    "C86_ends",
    "C86_first",
    "C86_possible",
    "C86_progress",
    "C86_refines"
   ],
   "note": "in Verif/Props/Rayon.lean | C86: If a receiver was left out when a packet was handed over, then the one that was registered just before it was left out as well, or panicked on this packet. | C86_both: With one job for all of them nobody else sees the packet; if the pool halves the range, `3 / 2 = 1`, only the first is alone and the others do see it. Which of the two happens depends on the load. | C86_earlier: So a receiver's panic harms only those behind it: whoever was left out has a receiver in front of it that panicked. | C86_ends: And it comes to an end: after a packet was taken, the pool makes at most `5 * n + 2` steps for `n` receivers, however it chooses them, before the scope returns. | C86_first: A receiver in front of which nobody panics, in particular the first one, is called with every packet that is taken out of the socket, whatever the others do: whenever the thread is between two packets or gone, it has seen all of them. | C86_possible: Conversely, the pool can do everything that `Listener.step` allows, panics included, except for leaving receivers out: an execution in which nobody is left out in the end is one of the pool. | C86_progress: Nothing gets stuck while a packet is handed over: either all jobs are done and the scope returns, or the pool can make a step, and nobody has to panic for it. | C86_refines: Whatever the jobs of the pool do looks from outside like an execution of `Listener.step`: with the same arrivals, failures, calls, returns and panics in the same order, and the same state in the end. So everything proved about those holds of these."
  },
  {
   "property": "C87",
   "status": "proved",
   "theorems": [
    "C87",
    "C87_derived",
    "C87_empty",
    "C87_next",
    "C87_next_same",
    "C87_rawend",
    "C87_same"
   ],
   "note": "in Verif/Props/Cost.lean | C87: Whatever bytes somebody sends, reading a header or a payload of the crate from them, successfully or not, takes at most two steps per byte and a few more: no length field makes it more. | C87_derived: The same holds of payloads an application derives, with constants that depend on the type only, unless the type has a vector whose elements may be empty. | C87_empty: With such a vector, eight bytes keep the reader busy for as long as the sender likes: `2^64 - 1` steps and more. | C87_next: A `next_payload`, with the size pass it makes to move the cursor, takes time linear in the bytes that are left in the packet, whatever they are and whatever comes of it. | C87_next_same: Counting does not change what `next_payload` does. | C87_rawend: A `RawEnd` takes two steps for every byte there is, and two to find that there are no more. | C87_same: The counted readers answer exactly as those of the model."
  },
  {
   "property": "C88",
   "status": "proved",
   "theorems": [
    "C88",
    "C88_abort",
    "C88_cursor",
    "C88_deep",
    "C88_enough",
    "C88_stack",
    "C88_write",
    "C88_write_abort"
   ],
   "note": "in Verif/Props/Recursive.lean | C88: A value of a recursive type (a list, a tree, types that contain each other) that a sender's `add` accepts reads back identically anywhere in a packet, and the cursor is then behind it, if the receiver's stack has room for as many nested calls as the value is deep. | C88_abort: And if it has not, reading the value aborts the receiver. | C88_cursor: Whatever is read, the cursor moves behind exactly the bytes that were consumed, and these are the bytes that would be written for it (with as much stack for the size pass as for reading). | C88_deep: A datagram may need a nested call for nearly every byte: however deep the stack is, `rd + 1` bytes overflow it. | C88_enough: How much stack is enough: for a type that reads at least a byte in every round, a number of nested calls proportional to the bytes left in the packet. Then nothing anybody sends overflows it. | C88_stack: More stack never changes an answer. | C88_write: Writing a value that is not too deep does not overflow the stack either. | C88_write_abort: Writing a value that is too deep overflows it: what a thread with more stack can add, one with less cannot."
  },
  {
   "property": "C89",
   "status": "proved",
   "theorems": [
    "C89",
    "C89_blocked",
    "C89_bound",
    "C89_buried",
    "C89_delivery",
    "C89_ends",
    "C89_progress",
    "C89_refines",
    "C89_rest",
    "C89_stack"
   ],
   "note": "in Verif/Props/Workers.lean, Verif/Props/WorkersPool.lean | C89: What happens at one listening thread is an execution of that thread and its jobs alone (C86), whatever the other listening threads and the pool do. So it is one as in C43 to C46 (`C86_refines`). | C89_blocked: If receiver calls occupy all threads of the pool and none of them ends, no receiver of any instance is called any more, whatever arrives. | C89_bound: Never more receiver calls are in progress than the pool has threads, all instances together. | C89_buried: A slow receiver of one instance can hold up another instance, however many threads the pool has and although all but one of them are idle ... | C89_delivery: When the pool has nothing left to do (and nothing panics), all listening threads are back at their sockets or gone, and have handed over everything they took: to each receiver in front of which nobody panicked. | C89_ends: The pool comes to rest: every packet taken out of a socket gives it a bounded amount of work, however the threads interleave and whatever they take up first. With `n` receivers that is at most `15 * n + 11` steps. | C89_progress: However listening threads and pool threads have been scheduled, and whatever is buried under what: as long as some listening thread waits for its packet to be handed over, a pool thread can make a step, and nobody has to panic for it. One pool thread is enough. | C89_refines: Every execution of the pool threads is one of the pool as `Model/Pool.lean` has it, with the same packets, calls, returns and panics in the same order: so everything proved there about what can be observed of all executions (C61, C66, C71, …) holds of these. | C89_rest: The pool has nothing to do exactly if no listening thread is handing over a packet: no thread keeps anything from a packet that has been handed over. | C89_stack: The stacks of the pool threads do not grow with time: on each there are at most as many frames as there are receivers registered at all instances (counting an instance without receivers as one), and one more."
  },
  {
   "property": "C90",
   "status": "proved",
   "theorems": [
    "C90",
    "C90_alone",
    "C90_delivery",
    "C90_endless_starts"
   ],
   "note": "in Verif/Props/LiveWorkers.lean | C90: Whatever is buried under what and however busy other instances keep the pool: if the pool is fair, receivers return or panic, and not for ever new instances are started, then every listening thread that hands over a packet gets through. | C90_alone: A datagram that arrives at an instance whose socket is empty reaches all its receivers, whether or not anything arrives after it, and whatever the load on the pool. | C90_delivery: So, as long as datagrams for an instance keep coming, every single one of them sooner or later reaches every one of its receivers, in order. One pool thread is enough; the other instances may be as busy as they like, fail and panic. | C90_endless_starts: Without an end to the starting of instances this need not be so: on a pool of any size and however fair it is, a thread may be buried under more and more waits, and a packet whose every receiver has been called for long is never through."
  },
  {
   "property": "C91",
   "status": "proved",
   "theorems": [
    "C91",
    "C91_community",
    "C91_finite",
    "C91_signed"
   ],
   "note": "in Verif/Props/LiveSigned.lean, Verif/Props/LiveWorld.lean | C91: Send a message again and again, over a network that may lose, duplicate, delay and reorder as it likes as long as it does not lose every copy, to a node whose machine is fair, where nothing fails and no receiver panics ... | C91_community: communities: If that node forwards to communities that do not panic, and the message has the header for the mid of one of them, a type that is not reserved, and fits into the buffer, then that community is called with the header, the whole message and the sender's address, as often as you like. | C91_finite: a finite number of times is not enough,: even if the network loses, duplicates and reorders nothing, everything arrives, the machine is fair and nothing fails: for every number there is an execution in which the message is successfully sent that often, all copies arrive, and every receiver is called at most once, ever. | C91_signed: signed messages: A message of a header, the sender's authentication payload and self-delimiting payloads, signed and sent again and again to a node whose communities do not panic: the community with its mid is called with it as often as you like ..."
  },
  {
   "property": "C92",
   "status": "proved",
   "theorems": [
    "C92",
    "C92_derived",
    "C92_empty",
    "C92_next",
    "C92_next_same",
    "C92_reserve",
    "C92_same",
    "C92_success"
   ],
   "note": "in Verif/Props/Memory.lean | C92: Whatever bytes somebody sends, reading a header or a payload of the crate from them, successfully or not, requests at most four times their number and a few bytes of memory, whatever a length field says; only a `VarLen64` has serde reserve up to a fixed amount before a byte has been seen. | C92_derived: The same holds of payloads an application derives, with constants that depend on the type only, unless the type has a vector whose elements may be empty. | C92_empty: With a vector whose elements may be empty, eight bytes make the reader fill as much memory as the sender likes: the size of an element times any number up to `2^64 - 1`. | C92_next: A `next_payload`, with the size pass it makes to move the cursor, requests memory linear in the bytes that are left in the packet, whatever they are and whatever comes of it. | C92_next_same: Counting memory does not change what `next_payload` does. | C92_reserve: Eight bytes do make the reader of a `VarLen64` (which fails) request memory, but never more than serde's bound. | C92_same: The readers with their memory answer exactly as those of the model. | C92_success: What a successful read has requested is bounded by the bytes it consumed: what was reserved for nothing is part of failed reads only."
  },
  {
   "property": "C93",
   "status": "proved",
   "theorems": [
    "C93",
    "C93_auth",
    "C93_crate",
    "C93_endless",
    "C93_iff",
    "C93_meaning",
    "C93_message",
    "C93_steps"
   ],
   "note": "in Verif/Props/Drain.lean | C93: A receiver that asks only for types whose values take room ends, whatever is in the packet and whatever it asks for, after at most as many payloads as there are bytes left. There is one way in which it ends. It does not panic unless the last thing it asked for was an authentication payload. | C93_auth: For authentication payloads the cursor moves 76 bytes and the read may have looked at all that is left: with `76 * k` bytes, for every `k` up to 862, it takes `38 * k * (k + 1)` steps and more to read `k` payloads. | C93_crate: The payload types of the crate all take room. | C93_endless: With a type that has a value which takes no room, the loop never ends, whatever is in the packet: every read succeeds, as often as you like. | C93_iff: So the loop ends on every packet exactly if no value of its type can be added without making a packet longer; if it fails to end on some packet, it does on all. | C93_meaning: What it means that a receiver ends: the payloads are those that `next_payload` gives, one after the other, each with the type that the receiver asked for; then it was content, or the next read failed, or panicked. | C93_message: A message of payloads of one type that knows where it ends: the loop reads exactly those payloads, in order, and stops at the end of the packet with an error. | C93_steps: All of it together takes time linear in the bytes left: whatever the receiver asks for, as long as it never asks for types with values that take no room, or with vectors of such."
  },
  {
   "property": "C94",
   "status": "proved",
   "theorems": [
    "C94",
    "C94_buffer",
    "C94_build",
    "C94_copied",
    "C94_empty",
    "C94_linear",
    "C94_refused",
    "C94_same",
    "C94_sign",
    "C94_unsigned"
   ],
   "note": "in Verif/Props/Writer.lean | C94: Writing a payload, whatever comes of it, takes a number of calls that is linear in the number of its elements, with constants that depend on the type alone; it requests at most three bytes of memory for every byte written, and at most one for every element of a payload that is refused. | C94_buffer: The vector bincode allocates has the capacity the first pass counted, the second pass fills it to the brim, and it never grows. | C94_build: A packet: what `Packet::new` returns, then any payloads, of which some may be refused. | C94_copied: A `NestedPacket` too long to be written is copied in full before it is refused. | C94_empty: Without that condition they are not: a `Vec<()>` of `n` elements takes `n` calls, for eight bytes. | C94_linear: If no vector in the type has elements that may be empty on the wire, the calls are linear in the bytes written. | C94_refused: A payload that is refused leaves no trace in the packet, however much of it had been handed over by then: not a byte, not a reallocation. | C94_same: The two-pass writing of bincode, value by value and into vectors that grow, returns what the model used everywhere else says it returns, for every payload, header and signature; so do `Packet::new`, `add` and `sign` on top of it. | C94_sign: Signing: 64 bytes more, in at most 132 calls and 64 bytes of memory besides the growth of the packet. | C94_unsigned: Where signing fails, nothing has been written and no memory taken for it."
  },
  {
   "property": "C95",
   "status": "proved",
   "theorems": [
    "C95",
    "C95_attained",
    "C95_bounded",
    "C95_keeper",
    "C95_peak",
    "C95_pool",
    "C95_pool_accounts",
    "C95_same",
    "C95_total"
   ],
   "note": "in Verif/Props/Heap.lean | C95: At every point of every execution, whatever arrives and however often, a listening thread has in memory its buffer, the packet being handed out and one copy for every receiver running, and nothing else except what receivers kept for themselves. While it waits that is the buffer alone ... | C95_attained: exact: A thread with receivers does come to need two buffers and one per receiver: one datagram as long as the buffer, with all receivers busy with it. | C95_bounded: no leak: If receivers drop their packets, the memory live never exceeds a bound that does not mention the execution: two buffers, and one per receiver. | C95_keeper: a keeper: The bound depends on the receivers: one that keeps every packet makes the memory grow with every datagram, without end, since nothing limits how many packets are handed to it. | C95_peak: the most: Apart from what receivers kept, it never had more in memory at once than two buffers and one per receiver (three without receivers). | C95_pool: a whole process: With any number of instances on a pool of `n` threads, none of them with a buffer of more than `B` bytes, all listening threads and receivers together have at most two buffers per instance and one per pool thread in memory, however many receivers the instances have ... | C95_pool_accounts: Every instance of a process has such an account. | C95_same: the same executions: Keeping account of the memory changes nothing: every execution of the listening thread has exactly one account. | C95_total: requested: All the memory it ever requested: its buffer once, every packet taken from the socket twice, and every packet once more for every receiver called with it. So at most `2 + receivers` times the bytes received."
  },
  {
   "property": "C96",
   "status": "proved",
   "theorems": [
    "C96",
    "C96_at_most",
    "C96_authentic",
    "C96_concurrent",
    "C96_flat",
    "C96_origin",
    "C96_pool",
    "C96_process",
    "C96_size",
    "C96_source"
   ],
   "note": "in Verif/Props/Concurrent.lean, Verif/Props/Machine.lean | C96: The threads of the pool, who takes up which job when, and what is buried under what on their stacks: nothing of that can be seen from outside ... | C96_at_most: If the network duplicates nothing, nothing arrives more often than it was sent. | C96_authentic: Signatures hold from end to end, whatever the pools do. | C96_concurrent: Never more receivers run at the same time in a process than its pool has threads, all instances together: at any moment of any history of a whole system, of the calls of receivers in process `k` all but at most that many are over. | C96_flat: Without NAT boxes on the way, the address a receiver is called with is the source of the datagram. | C96_origin: Nothing comes from nowhere (as in C78): when a receiver is called with a packet, then the same bytes were handed to the network before, and arrived afterwards at the very socket whose thread makes the call. | C96_pool: And each pool by itself behaves as in C89, so that all of C89 holds of it: never more receiver calls in progress than threads, never stuck, bounded stacks, bounded work for every packet. What listening thread `t` does in the pool is what is recorded about its socket. | C96_process: The same for each process by itself: its history is one of `Model/Node.lean`, so that all of C66, C67, C71 and C72 holds of it. | C96_size: Nothing but starting one adds a process or takes one away, and its pool has the size it was started with for ever: threads are neither lost, whatever panics, nor added. | C96_source: What a process hands to the network comes from a socket that it has bound and not closed."
  },
  {
   "property": "C97",
   "status": "proved",
   "theorems": [
    "C97",
    "C97_alone",
    "C97_arrived",
    "C97_community",
    "C97_lives",
    "C97_sends",
    "C97_signed"
   ],
   "note": "in Verif/Props/LiveMachine.lean | C97: Hand a message to the network again and again; let the network lose, duplicate, delay and reorder as it likes as long as it does not lose every copy, and let NAT boxes readdress it ... | C97_alone: one message: A message that is delivered once, when everything that arrived before has been taken out of the socket, reaches every receiver, whether or not anything comes after it. | C97_arrived: everything that arrives: As long as datagrams for the address of a listening thread keep being delivered (any datagrams, from anywhere), every single one that ever arrived in its socket reaches every receiver: number `i` of them is sooner or later what each receiver is called with for the `i`-th time. | C97_community: communities: If that thread forwards to communities that do not panic, and the message has the header for the mid of one of them, a type that is not reserved, and fits into the buffer, then that community is called with the header, the whole message and the address the message arrived from, as often as you like. | C97_lives: it stays: The thread keeps its socket for ever, whatever the rest of the process and the system do. | C97_sends: What calls to `send` do for `Repeats`: each one hands the packet to the network, with the address of the sending socket. | C97_signed: signed messages: A message of a header, the sender's authentication payload and self-delimiting payloads, signed and handed to the network again and again ..."
  },
  {
   "property": "C98",
   "status": "proved",
   "theorems": [
    "C98",
    "C98_advisory",
    "C98_python",
    "C98_questions",
    "C98_with"
   ],
   "note": "in Verif/Props/Questions.lean | C98: `verify` asks at most one question, about the whole packet and the key in the authentication payload at the cursor, and gives the answer to it; if there is no such payload or the packet is shorter than a signature, it asks none: all libraries lead to the same. | C98_advisory: Whether signatures are valid is told to the caller and has no other effect: after any history of calls the packet and the cursor are the same, whatever the library answered; also whether a call panics does not depend on it. So a receiver that does not look at the answer of `verify` reads a forged message just like a genuine one. | C98_python: Python: The same of the binding: what `verify_signature` returns besides the answer does not depend on it. | C98_questions: However a receiver goes about a packet: what it comes to depends on at most as many answers of the library as it has called `verify` and `verify_with`; each is about a message that, with its 64 bytes of signature, is a prefix of the packet. | C98_with: `verify_with` asks one question, about the whole packet and the given key, and gives the answer to it; for a packet shorter than a signature it asks none."
  },
  {
   "property": "C99",
   "status": "proved",
   "theorems": [
    "C99",
    "C99_crate",
    "C99_forward",
    "C99_middle",
    "C99_open",
    "C99_panic",
    "C99_payloads",
    "C99_uncaught"
   ],
   "note": "in Verif/Props/Visitor.lean | C99: A payload with a hand-written reader that passes every error on, whatever else it does: what `next_payload` makes of it depends on the bytes it takes and nothing behind them, and every shorter packet is one in which bytes are missing. | C99_crate: The readers of the crate are such programs. | C99_forward: Any reader, also one that catches errors, leaves unread an end of what was there: it never sees a byte twice, skips back or invents any. | C99_middle: A reader that catches the error of an element goes on where that element stopped, in the middle of it: here after an address cut short by one byte, with the first byte of its port. The failed element counts as one of those announced. | C99_open: A reader that catches errors need not: a `RawEnd` takes whatever is behind it. | C99_panic: A reader panics only where its own code does: no bytes make `next_payload` panic otherwise, if the cursor is inside the packet and writing the value does not panic. | C99_payloads: All payloads of the crate but the two introductions, which end in a `RawEnd`, rest on the bytes they take; and so do all payloads an application derives without a `RawEnd`. | C99_uncaught: And a panic cannot be caught by a reader around it, as an error can: whatever that is prepared to do, it panics too, as a whole element and as an element of something, and so does `next_payload`."
  },
  {
   "property": "C100",
   "status": "proved",
   "theorems": [
    "C100",
    "C100_rest",
    "C100_stream"
   ],
   "note": "in Verif/Props/Fairness.lean | C100: Every execution can go on in such a way that nobody is passed over for ever, and fairness takes nothing away from the environment: an opponent that sees everything and gets its turn again and again, and that may start instances, send datagrams, make calls fail and panic and schedule pool threads as it likes, cannot prevent it. | C100_rest: Wherever the process has got to: the pool and the listening threads can go on, without a panic or an error, until nobody has anything to do. | C100_stream: So, whatever has happened so far, as long as nothing went wrong at an instance (it cannot panic, no system call failed): whatever datagrams come from now on, one after the other without end, it can be that all of them are handed to all its receivers."
  },
  {
   "property": "C101",
   "status": "proved",
   "theorems": [
    "C101",
    "C101_aligned",
    "C101_caught",
    "C101_crate",
    "C101_cursor",
    "C101_memory",
    "C101_next",
    "C101_overrun",
    "C101_payload",
    "C101_pure",
    "C101_repeats",
    "C101_twice",
    "C101_whole"
   ],
   "note": "in Verif/Props/Program.lean | C101: `Packet::add` of any payload, whatever its `serialize` does: the program is run, and if that returned `Ok` it is run once more in the state it was left in. The packet is extended by what the second run handed over if both returned `Ok`; else it is as it was, and the caller gets the first error or panic. | C101_aligned: So what comes next in the packet is what the reader left unread exactly if the value is written with as many bytes as it was read from. | C101_caught: A writer that leaves out what cannot be written, as `let _ = state.serialize_element(x)` looks like: it returns `Ok`, but what the refused elements had handed over by then stays in the packet. | C101_crate: The writers of the crate, and derived ones, are programs of this kind: they pass every error on, have no state, end as the writers of `Model/Writer.lean` do and hand over the same values in the same order, also when they fail half way. | C101_cursor: `next_payload` of any type, whatever its `deserialize` and `serialize` do: the value is what the reader made, the cursor moves by what a run of the freshly read value's writer hands over; if that run fails or panics, the value is lost and the cursor stays. | C101_memory: What bincode requests for its buffer: the size the first run counted, and more only if the second run hands over more, then in proportion to that. | C101_next: Without a state it is the `next_payload` of `Model/Crypto.lean` for the type whose `Serialize` the program is. | C101_overrun: A value that is written with more bytes than were left moves the cursor past the end; from there every read, of whatever type, panics, and nothing brings the cursor back. | C101_payload: So `add` of a payload of the crate is, run by run, what `Packet.add` says; and if it returned `Ok`, nothing in the payload was left out. | C101_pure: A program without a state is a function of the value, and `add` is what `Model/Packet.lean` says for the type whose `Serialize` it is: hand-written `Serialize` implementations without interior mutability are covered by all that is proved there for every `Serialize`. | C101_repeats: A payload that writes the same both times: `add` returns what one run returns, and appends what one run hands over; bincode's buffer is exactly as large as what it holds and was requested once. | C101_twice: Every `add` advances it twice, and what the packet gets is its value after the second time: of the numbers the counter goes through, those at odd places are never sent. | C101_whole: A program that passes errors on: if `add` returned `Ok`, all its parts were written to their end, both times."
  },
  {
   "property": "C102",
   "status": "proved",
   "theorems": [
    "C102",
    "C102_community",
    "C102_rest",
    "C102_stream"
   ],
   "note": "in Verif/Props/Game.lean | C102: Every execution of a system can go on in such a way that nobody in any process that has pool threads is passed over for ever, and an opponent who plays the applications, the network, the foreign hosts and, whenever it likes, any thread cannot prevent it. | C102_community: If that thread forwards to communities that do not panic, and the messages are for its communities: it can be that every one of them is handed, whole, to the community it is for, in the order in which they were sent, after what came before. | C102_rest: Wherever a system of processes has got to: their pools and listening threads can go on, without a panic or an error and without anything else happening, until nobody anywhere has anything to do. | C102_stream: So, wherever a system has got to, if there is a listening thread at which nothing went wrong so far (it cannot panic, none of its system calls failed) ..."
  },
  {
   "property": "C103",
   "status": "proved",
   "theorems": [
    "C103",
    "C103_communities",
    "C103_every",
    "C103_fleet",
    "C103_independent",
    "C103_one",
    "C103_others",
    "C103_possible",
    "C103_race"
   ],
   "note": "in Verif/Props/Shared.lean | C103: At every moment at which no receiver is at work: the memory is one that comes about when the datagrams that have been read are dealt with one after the other, in the order of their arrival, the next when all the receivers have returned ... | C103_communities: A receiver that hands messages to the registry (`community/mod.rs:147-164`), whose communities may share any memory (with `handler` for what their `on_receive` do) ... | C103_every: And nothing more can be said: every memory that comes about in this way does come about, for all datagrams, with some schedule. | C103_fleet: In systems of any number of processes, each with any number of instances on a pool of threads: the same for every instance. When each receiver has been called with everything read so far and has returned, the memory is that of the datagrams dealt with in turn ... | C103_independent: If the receivers do not disturb each other, the memory does not depend on the schedule: it is that of the receivers called one after the other, each to its end, for one datagram after the other. | C103_one: One receiver, e.g. the one that hands messages to the registry: its work for a message is never mixed with anything, and whatever its communities share is changed by one message after the other. | C103_others: Other parts of the application may use the memory at any time. If the receivers do not see what they do (e.g. it is another part of the memory), it is as if that was done afterwards, in the same order: what the receivers have done is what they would have done without. | C103_possible: Memory stops nobody (a receiver always ends, as long as it does not wait for others): whatever the thread and the pool do, there is a history of the memory that goes with it, if no receiver panics. | C103_race: Receivers of one instance are really called at the same time: two that count in two sections can, for the same datagram, lose a count or not, as the schedule will have it."
  },
  {
   "property": "C104",
   "status": "proved",
   "theorems": [
    "C104",
    "C104_after",
    "C104_half",
    "C104_one",
    "C104_panic"
   ],
   "note": "in Verif/Props/Crash.lean | C104: At every moment of every execution, also while receivers are at work, and after one has panicked: the datagrams read before the last one have been dealt with one after the other, in the order of their arrival, each by all receivers to the end, none of which panicked ... | C104_after: From then on the receivers do nothing to the memory: whatever happens, only others change it. | C104_half: Work may remain half done: two messages, both counted in the first account, but the receiver panics with the second one before it has changed the second account; the thread ends, the third message stays in the queue, and the memory stays as it is. | C104_one: One receiver, e.g. the one that hands messages to the registry, and nobody else using the memory: at any moment between two messages and after the thread has ended for whatever reason, the memory is as if the receiver had been called with one datagram after the other, each time until it returned or, with the last one, panicked ... | C104_panic: When a panic of a receiver has ended the thread: everything before the datagram in question has been dealt with completely. For this one some receiver has panicked; every other one has also ended (in whatever way), with all its work up to there done, or was never called and has done nothing; and what had been done is not undone."
  },
  {
   "property": "C105",
   "status": "proved",
   "theorems": [
    "C105",
    "C105_memory",
    "C105_progress",
    "C105_queues",
    "C105_refines",
    "C105_running",
    "C105_two"
   ],
   "note": "in Verif/Props/Deque.lean, Verif/Props/Queues.lean | C105: With a pool of one thread, there is one sequence of rounds for the whole process, and everything goes by it: packets are handed out one after the other, whichever instance they belong to. | C105_memory: Therefore receivers need no locks against each other (if nobody else changes what they use): with a pool of one thread, memory is what the rounds make of it, one receiver after the other, each with its whole program at once. So it is at every moment at which no receiver is at work ... | C105_progress: As long as some packet has not been handed out completely, some pool thread can make a step that its queues allow, and no receiver needs to panic for it. | C105_queues: Whatever the queues are: what is in them is exactly what has been left for whoever comes first, each range once. | C105_refines: Queues only restrict what pool threads may do: without them, every execution is one of the pool of C89, so that everything that holds there (C89, C90, C96) holds here. | C105_running: With any number of threads, and whatever else changes the memory: those programs are running whose receivers are at work, for every instance. | C105_two: With two threads this is not so: the second one steals, both receivers are at work at once, the marks are not those of any sequence of rounds, and one of the increments is lost."
  },
  {
   "property": "C106",
   "status": "proved",
   "theorems": [
    "C106",
    "C106_always",
    "C106_blind",
    "C106_bound",
    "C106_due",
    "C106_errors",
    "C106_lifts",
    "C106_one",
    "C106_payload",
    "C106_refines",
    "C106_warnings"
   ],
   "note": "in Verif/Props/Log.lean | C106: The lines the listening thread itself writes, in every execution: two when it starts; then one line per poll, followed by a second one when there was something to read; and last a line of level \"error\" if polling or reading failed. The second lines count the datagrams taken (and the read that failed). | C106_always: And at every other moment, also after a panic: those of all datagrams before the current one, and some of those of the current one. | C106_blind: The thread's own lines are the same whatever the datagrams contain and wherever they come from: two executions that differ only in that write the same lines. | C106_bound: A stranger cannot make the log grow faster than that: at every moment, also in the middle of a datagram and after a panic, there are at most as many warnings as datagrams taken times registries. | C106_due: For receivers that hand their packets to registries the warnings due are: one per registry in which the addressed community is registered, if the type is a legacy one, with its name and the datagram's source. | C106_errors: The lines of level \"error\" are exactly what `join` on the handle stands for: none while the thread lives, one when polling or reading failed — and none when a receiver panicked, so that a thread can be gone without a single line of this crate saying so. | C106_lifts: And nothing is prevented: every execution of the thread is one with the log being written, with the same steps and the same outcome. | C106_one: With one registry the warnings can be read off the datagrams: they are, in order, those due for the datagrams handled, which are the ones that arrived up to what is still queued. | C106_payload: Of a datagram's contents nothing but the first 23 bytes decides about its warning, and the line shows nothing but a fixed name and the source: the payload cannot get into the log. | C106_refines: Logging changes nothing: whatever happens with the log being written happens without it. | C106_warnings: The warnings: between two datagrams (and after the thread ended for want of input) the log holds, for each datagram taken, exactly the warnings due for it, one datagram's before the next's."
  },
  {
   "property": "C107",
   "status": "proved",
   "theorems": [
    "C107",
    "C107_cross",
    "C107_ends",
    "C107_full",
    "C107_knot",
    "C107_meet",
    "C107_owner",
    "C107_refines",
    "C107_rest",
    "C107_running",
    "C107_single",
    "C107_stuck",
    "C107_wait"
   ],
   "note": "in Verif/Props/Locks.lean | C107: Receivers and application threads that take locks in a common order, give them back and wait for nothing else, never stop each other ... | C107_cross: Without the common order this is not so: two receivers that take two locks in opposite orders can stop each other, and the instance, for ever. | C107_ends: Whatever the receivers and the application do and wait for: without anything new from outside, only finitely many steps are possible. | C107_full: If the receiver calls that occupy all threads of the pool wait for each other's locks, or for conditions that nothing outside of the pool makes true, no receiver of any instance is called any more, whatever the receivers would do and whatever arrives. | C107_knot: If each of some parties (calls of receivers or application threads) waits for a lock that one of them has, or hopelessly for a condition, they wait for ever, whatever the others do and whatever arrives; and the instances whose receivers are among them never take a datagram from their sockets again. | C107_meet: How many threads the pool has decides: receivers that meet each other are called and return with two threads; with one thread the second one is never called, in no way on in which no thread of the application interferes. | C107_owner: A lock changes hands in no other way than this: who takes it found it free; who had it gives it back, or panics, which poisons it; and nothing else poisons a lock, or heals it. | C107_refines: Locks and waiting add nothing to what the pool can do: its part of an execution is one of C105. | C107_rest: And some finite way on, without anything new from outside, ends there. | C107_running: Those calls are running whose receivers are at work. | C107_single: So if the pool has one thread, one receiver that waits for something that only another receiver, of whichever instance, could bring stops all receivers of all instances for ever. | C107_stuck: With the discipline of C107, when nobody can make a step all work is done. | C107_wait: A receiver that waits for something that only a later datagram of the same instance could bring waits for ever, and the instance is dead."
  },
  {
   "property": "C108",
   "status": "proved",
   "theorems": [
    "C108",
    "C108_count",
    "C108_frozen"
   ],
   "note": "in Verif/Props/Mutex.lean | C108: If the receivers, and the threads of the application, touch the shared memory only with one mutex locked, everything is as if the calls had been made one after the other, in some order, with a pool of any size ... | C108_count: A counter behind a mutex counts right, with a pool of any size: when nothing is running it has been increased as many times as receivers were called and application threads began (compare C105_two, where an increment is lost without the mutex). | C108_frozen: One panic with the lock held is the end of the shared memory, if the lock is taken with `lock().unwrap()`: once it is poisoned (and given back), the memory never changes again, and if nothing was running then, every later call, of every receiver of every instance, panics."
  },
  {
   "property": "C109",
   "status": "proved",
   "theorems": [
    "C109",
    "C109_count",
    "C109_ended",
    "C109_ends",
    "C109_fork",
    "C109_handover",
    "C109_held",
    "C109_join",
    "C109_owner",
    "C109_poison",
    "C109_rest",
    "C109_scope",
    "C109_self",
    "C109_stuck"
   ],
   "note": "in Verif/Props/Nested.lean | C109: Receivers may use the pool themselves: if they and the rest of the application take locks in a common order, give them back, and hold none while they wait for others in the pool, they never stop each other ... | C109_count: Nothing that jobs do is lost, and nothing is done twice, however the pool divides and moves the work: if what is begun adds certain amounts to a quantity of the memory, then at every moment no more than their sum has been added, and exactly their sum once all jobs have ended. | C109_ended: A job that has ended stays so. | C109_ends: Whatever the jobs do, also without any discipline: without anything new from outside only finitely many steps are possible. | C109_fork: What `rayon::join(a, b)` waits for: two new jobs, one that does `a`, on top of the stack, and one that does `b`, the youngest of the queue. Outside the pool: one new job that does both, in the pool. | C109_handover: What the listening thread begins for a packet (`networking/mod.rs:133-140`) keeps the discipline if the calls of the receivers do, and adds what they add, each once, in whichever way the receivers are divided among the threads. | C109_held: The condition that no lock is held while others in the pool are waited for cannot be dropped, not even for a single lock: two instances with one receiver each, which counts under this lock and uses `rayon::join` meanwhile, can come to a state after which neither ever finishes with its packet, whatever happens. | C109_join: A job that waits for others goes on only when they have all ended: it does not change before a moment at which they have, and goes then on with what comes next, or, if one of them panicked, panics. | C109_owner: A lock changes hands in no other way than this: a job that takes it found it free and is told whether it is poisoned; the job that had it gives it back, or panics, which poisons it; and nothing else poisons a lock, or heals it. | C109_poison: A lock is poisoned only if a job panicked that had it. | C109_rest: And some finite way on, without anything new from outside, ends there. | C109_scope: What a scope with a spawned job in it waits for: one new job that does it, the youngest of the queue. Outside the pool: one new job that does the same in the pool. | C109_self: A thread of the pool whose innermost job wants a lock that a job further down on its own stack has is lost: nothing that happens afterwards changes its stack, gives the lock back or ends any job on that stack. | C109_stuck: With the discipline of C109, when no thread can make a step all work is done."
  },
  {
   "property": "C110",
   "status": "proved",
   "theorems": [
    "C110",
    "C110_finish",
    "C110_handover",
    "C110_order",
    "C110_packets",
    "C110_progress",
    "C110_rest",
    "C110_stuck",
    "C110_whole"
   ],
   "note": "in Verif/Props/Single.lean | C110: With a pool of one thread, what is put into it from outside (the packets of any number of instances, and whatever the application has done by the pool) is done as if there were no pool ... | C110_finish: Left to itself the thread of the pool finishes what it has begun: after finitely many steps, of this thread alone, its stack and its queue are empty and it has taken nothing else. | C110_handover: However the pool divides a packet's receivers: with one thread, the hand-over calls them one after the other in the order in which they were added, as long as none panics; it returns if and only if all of them do; and if their calls keep the rule about locks, so does the hand-over. | C110_order: First come, first served, in pools of any size: what is put into the pool from outside is begun in this order, whoever it comes from; nothing is left out and nothing is begun twice. | C110_packets: The packets of any number of instances, with a pool of one thread: whenever the thread has nothing on its stack, and no receiver panicked, memory is as if a single thread had taken the packets in the order in which they were put into the pool and, for each, had called the receivers one after the other in the order in which they  ... | C110_progress: The thread never gets stuck: as long as there is something on its stack it can go on with its innermost job, or take one from its own queue. | C110_rest: And some finite way on, without anything new from outside, ends there. | C110_stuck: When no thread can make a step, all work is done. | C110_whole: Nothing else is begun before: when the thread takes something from outside it has nothing on its stack and nothing in its queue, and no lock is held by anybody."
  },
  {
   "property": "C111",
   "status": "proved",
   "theorems": [
    "C111",
    "C111_possible",
    "C111_signed",
    "C111_until"
   ],
   "note": "in Verif/Props/Conversation.lean | C111: A conversation of any length, between any processes: if the first message is handed to the network again and again, and each process sends the next message whenever it has been called with the one before, then every one of these messages gets through as often as you like, although the network loses any number of each. | C111_possible: From every state a system can get into, every conversation among threads at which nothing went wrong is possible: there is a life of the system, continuing what has happened so far, in which everything holds that `C111` and `C111_until` ask for ... | C111_signed: signed questions and answers: A node signs a question and sends it again and again until one of its communities has been called `n` times with the answer; another one, whose community is called with the question, signs an answer and sends it whenever that happens ... | C111_until: until it is answered: It is enough if the first message is sent again as long as the last one of the conversation has not come `n` times: it will have."
  },
  {
   "property": "C112",
   "status": "proved",
   "theorems": [
    "C112",
    "C112_again",
    "C112_broken",
    "C112_broken_late",
    "C112_calls",
    "C112_configured",
    "C112_late",
    "C112_race",
    "C112_stays",
    "C112_threads",
    "C112_through",
    "C112_whose"
   ],
   "note": "in Verif/Props/Startup.lean | C112: Once there is a pool, no listening thread is ever killed by the lack of one; and as long as there is none, no datagram has ever been handed over. So in no process it happens that some hand-overs work and some kill their thread. | C112_again: again: Whatever the reason was that a call failed: trying again gets past the pool. | C112_broken: broken: If the call of `IPv8::new` that sets up the pool is told that this failed, then all other calls get past the pool without complaint, at any time; but there will never be a pool: no listening thread of this process ever hands over a datagram, and the first one it gets kills it. | C112_broken_late: broken by itself: If a datagram came before the first call and rayon could not set up its pool, that thread is dead, and so will be all others that get a datagram. All calls of `IPv8::new` panic, or, with other versions of rayon, one fails and the others get past the pool without complaint. | C112_calls: the same calls: Everything that calls of `IPv8::new` do here, they can do in the process of C59, where the pool builder answers as it likes; so what is proved there for all answers holds here. | C112_configured: as configured: If the calls of `IPv8::new` that have ended (at least one) had no complaint, then the pool has the number of threads that one of these calls was configured with, and from then on no call ends otherwise and no hand-over fails. | C112_late: too late: If a datagram has been handed over before `IPv8::new` is called for the first time, the pool has the standard number of threads for ever, whatever configurations say; of the calls that end, exactly one fails, because the pool exists already; the others are past the pool. | C112_race: a race: In the same situation — a listening thread has been started, and somebody calls `IPv8::new` for the first time — it depends on whether a datagram comes before, or during the call at the latest, whether the call fails. | C112_stays: its size: The pool is set up once and never changes. | C112_threads: how many threads: The pool has at least one thread: as many as a call of `IPv8::new` asked for, or, if it asked for 0 or nobody asked, the standard number; in any case not more than rayon allows. | C112_through: nobody is stuck: As long as somebody has not got through, somebody can get on: the two `Once`s never block each other. Everybody needs three steps at most. | C112_whose: whose pool it is: If there is a pool, then either a call of `IPv8::new` set it up, with the number of threads of its configuration, and all calls that have ended are past the pool ..."
  },
  {
   "property": "C113",
   "status": "proved",
   "theorems": [
    "C113",
    "C113_enough",
    "C113_free",
    "C113_lock",
    "C113_lost",
    "C113_over",
    "C113_panic",
    "C113_parallel",
    "C113_signing",
    "C113_stays",
    "C113_through"
   ],
   "note": "in Verif/Props/Gil.lean | C113: However Python threads take turns: the answers a thread has got are those of its first calls, one after the other, as if each was made alone. | C113_enough: one call is enough: If some thread's next call panics when it is made alone, there is a way to go on in which the process is lost. | C113_free: a verification needs nobody: A thread that is in `verify` gets through with it, whoever has the GIL, and without a change to another thread. | C113_lock: the lock: At most one thread is in Python code or in Rust code that uses Python objects. | C113_lost: what loses the process: Only a call that panics when it is made alone (C50 says which) does. | C113_over: the end: Once a panic got to the boundary, nothing more happens, in no thread. | C113_panic: a call that panics: A thread whose next call panics when it is made alone gets no answer any more, whatever is done. | C113_parallel: verifications at once: Any number of threads can be in `verify` at the same time, while one more has the GIL. | C113_signing: a signature stops the others: While a thread is in `borrowed_create_signature`, no other thread gets the GIL: each step of another thread is a step of `verify`, or the process is lost. | C113_stays: answers stay: Whatever comes later, a thread keeps the answers it has got, in their order. | C113_through: nobody is stuck: From every state, if nobody makes a call that panics, all calls of all threads can be answered."
  },
  {
   "property": "C114",
   "status": "proved",
   "theorems": [
    "C114",
    "C114_confused",
    "C114_packet",
    "C114_prefix",
    "C114_signed"
   ],
   "note": "in Verif/Props/Meaning.lean | C114: The parties agree which payload types follow which header (`types`). Then two messages that keep to that and have the same bytes are the same message: same mid, same message type, same payloads. | C114_confused: the agreement is needed: The bytes alone do not tell the types. Behind any header and any payloads, an empty 16-bit-length list and a struct with the 16-bit number 0 give the same packet, and so do a list of one byte and a struct of the number 1 and that byte ... | C114_packet: signed packets: The same for whole packets: two signed packets with the same bytes come from the same message, and the same key is in them. | C114_prefix: prefixes: If all agreed types know where they end, no message is the beginning of another one: whatever is put behind a message, the result is not a message, unless nothing is. | C114_signed: signed messages: The bytes that are signed tell, with the agreed types, who signed what: messages of two key holders with the same signed bytes have the same key in them and are the same message. So a signature covers one message only, of one key holder, for one community."
  },
  {
   "property": "C115",
   "status": "proved",
   "theorems": [
    "C115",
    "C115_auth",
    "C115_request",
    "C115_response",
    "C115_signed",
    "C115_unsigned"
   ],
   "note": "in Verif/Props/OneForm.lean | C115: For all payload types but authentication and introduction: two packets in which a receiver reads the same header and the same payloads agree byte for byte as far as it has read, which is equally far. So if it has read both to the end they are the same packet. | C115_auth: authentication payloads: Two of them, with contents long enough to be read, read the same exactly if the first 74 bytes of their contents are the same: the announced length and all bytes behind the 74th do not count. | C115_request: introduction requests: Two requests read the same exactly if they agree in all bytes but the flag byte, and in the flag byte in bit 7 and in the connection type that bits 0 and 1 mean. | C115_response: introduction responses: The same, but bit 7 does not count. | C115_signed: signed messages: The key holder signs only messages that follow the agreed types (introductions included). Two packets, neither of them a forgery, that a receiver accepts as the same message are equally long and the same but for the last 64 bytes, the signature ... | C115_unsigned: without signatures it is not so: Behind every header there are packets with an introduction request that differ and read the same; anyone on the way can turn one into the other."
  },
  {
   "property": "C116",
   "status": "proved",
   "theorems": [
    "C116",
    "C116_any",
    "C116_live",
    "C116_network",
    "C116_safe"
   ],
   "note": "in Verif/Props/OnceOnly.lean | C116: The community has been called with any packets, none of them a forgery: then it has acted on no message twice, and on exactly those messages that one of the packets can be accepted as; all of them were signed by the key holder. | C116_any: no panic on anything: If no authentication payload is among the agreed types, the community does not panic on any packet at all, forgeries included. | C116_live: exactly once: A message of the key holder, signed and sent again and again over a network that may lose and repeat what it likes but not lose everything, to a node of which no community panics: from some moment on, the community with its mid has acted on it exactly once, and remains so for ever. | C116_network: many computers: At any moment of any run, at any node on which communities are registered, whatever was sent to it, forgeries excepted, lost, repeated or in whatever order, and in whatever order the threads of the pool call the community ... | C116_safe: no panic: Called with any packet that is not a forgery, the community does not panic."
  },
  {
   "property": "C117",
   "status": "proved",
   "theorems": [
    "C117",
    "C117_any",
    "C117_live",
    "C117_network",
    "C117_replay"
   ],
   "note": "in Verif/Props/InOrder.lean | C117: The community has been called with any packets, none of them a forgery: the messages it has acted on have strictly increasing times (so none is acted on twice) and were signed by the key holder; it has acted on exactly those whose packet came before every packet with a time at least as high ... | C117_any: no panic: If no authentication payload is among the agreed types, the community does not panic on any packet at all. | C117_live: progress: A message of the key holder with a time, signed and sent again and again over a fair network to a node of which no community panics: from some moment on, the community remembers this time or a higher one, for ever, and so has acted on this message or on a later one. | C117_network: many computers: At any moment of any run, at any node on which communities are registered, whatever was sent to it, forgeries excepted, lost, repeated or in whatever order, and in whatever order the threads of the pool call the community ... | C117_replay: replays: When the community has been called with packets that are no forgeries, any of them may come again, any number of times, in any order: it acts on nothing more."
  }
 ]
}