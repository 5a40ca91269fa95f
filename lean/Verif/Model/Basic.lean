import Verif.Model.Serde
/-!
# Building blocks: bits, connection type, address, varlen, rawend, header
-/

namespace Ipv8

/-! ## `serialization/bits.rs` -/

/-- `serialization/bits.rs:13-22`. -/
structure Bits where
  bit0 : Bool
  bit1 : Bool
  bit2 : Bool
  bit3 : Bool
  bit4 : Bool
  bit5 : Bool
  bit6 : Bool
  bit7 : Bool
  deriving DecidableEq, Repr

/-- `serialization/bits.rs:25-31`. -/
def boolToU8 (data : Bool) : UInt8 := if data then 1 else 0

namespace Bits

/-- `serialization/bits.rs:35-46`. -/
def new : Bits := ⟨false, false, false, false, false, false, false, false⟩

/-- `serialization/bits.rs:49-60`; the Rust tuple of eight booleans is eight arguments here. -/
def fromBools (b0 b1 b2 b3 b4 b5 b6 b7 : Bool) : Bits := ⟨b0, b1, b2, b3, b4, b5, b6, b7⟩

/-- `serialization/bits.rs:63-74`. -/
def fromU8 (num : UInt8) : Bits where
  bit0 := decide ((num &&& 1) > 0)
  bit1 := decide (((num >>> 1) &&& 1) > 0)
  bit2 := decide (((num >>> 2) &&& 1) > 0)
  bit3 := decide (((num >>> 3) &&& 1) > 0)
  bit4 := decide (((num >>> 4) &&& 1) > 0)
  bit5 := decide (((num >>> 5) &&& 1) > 0)
  bit6 := decide (((num >>> 6) &&& 1) > 0)
  bit7 := decide (((num >>> 7) &&& 1) > 0)

/-- `serialization/bits.rs:77-86`. -/
def toU8 (b : Bits) : UInt8 :=
  boolToU8 b.bit0
    ||| (boolToU8 b.bit1 <<< 1)
    ||| (boolToU8 b.bit2 <<< 2)
    ||| (boolToU8 b.bit3 <<< 3)
    ||| (boolToU8 b.bit4 <<< 4)
    ||| (boolToU8 b.bit5 <<< 5)
    ||| (boolToU8 b.bit6 <<< 6)
    ||| (boolToU8 b.bit7 <<< 7)

end Bits

/-- `serialization/bits.rs:89-98`. -/
instance : Serialize Bits where
  ser b := .ok [.u8 b.toU8]

/-- `serialization/bits.rs:106-129`. -/
instance : Deserialize Bits where
  de _ := do
    let value ← deU8
    pure (Bits.fromU8 value)

/-! ## `payloads/connectiontype.rs` -/

/-- `payloads/connectiontype.rs:7-14`. -/
inductive ConnectionType
  | PUBLIC
  | SYMMETRICNAT
  | UNKNOWN
  deriving DecidableEq, Repr

namespace ConnectionType

/-- `payloads/connectiontype.rs:19-25`. -/
def encode : ConnectionType → Bool × Bool
  | UNKNOWN => (false, false)
  | PUBLIC => (true, false)
  | SYMMETRICNAT => (true, true)

/-- `payloads/connectiontype.rs:28-35`. -/
def decode : Bool × Bool → ConnectionType
  | (false, false) => UNKNOWN
  | (true, false) => PUBLIC
  | (false, true) => UNKNOWN
  | (true, true) => SYMMETRICNAT

end ConnectionType

/-! ## `networking/address.rs` -/

/-- `std::net::SocketAddr`: an IPv4 address (four octets) and port, or an IPv6 address (16 octets),
port, flow info and scope id. -/
inductive SocketAddr
  | v4 (a b c d : UInt8) (port : UInt16)
  | v6 (ip : FixedBytes 16) (port : UInt16) (flowinfo scope : UInt32)
  deriving DecidableEq, Repr

/-- `networking/address.rs:13`: a newtype around `SocketAddr`. -/
structure Address where
  sock : SocketAddr
  deriving DecidableEq, Repr

/-- `networking/address.rs:15-34`.  serde writes an `Ipv4Addr` in a binary format as its four octets. -/
instance : Serialize Address where
  ser a :=
    match a.sock with
    | .v4 a b c d port => .ok [.u8 a, .u8 b, .u8 c, .u8 d, .u16 port]
    | .v6 _ _ _ _ => .err (.custom "ip-v8 does not (yet) support ipv6")

/-- serde's binary `Ipv4Addr::deserialize`: a `[u8; 4]`, i.e. a tuple of four `u8`
(`networking/address.rs:55`). -/
def deIpv4 : De (UInt8 × UInt8 × UInt8 × UInt8) := do
  let (a, n) ← field deU8 (.invalidLength 0) 4
  let (b, n) ← field deU8 (.invalidLength 1) n
  let (c, n) ← field deU8 (.invalidLength 2) n
  let (d, _) ← field deU8 (.invalidLength 3) n
  pure (a, b, c, d)

/-- `networking/address.rs:36-68`, `deserialize_tuple(2, …)`. -/
instance : Deserialize Address where
  de e := do
    let ((a, b, c, d), n) ← field deIpv4 (.custom "Could not deserialize the address") 2
    let (port, _) ← field (deU16 e) (.custom "Could not deserialize the port") n
    pure ⟨.v4 a b c d port⟩

/-! ## `serialization/varlen.rs` -/

/-- `serialization/varlen.rs:11`. -/
structure VarLen16 where
  data : Bytes
  deriving DecidableEq, Repr

/-- `serialization/varlen.rs:17`. -/
structure VarLen32 where
  data : Bytes
  deriving DecidableEq, Repr

/-- `serialization/varlen.rs:23`. -/
structure VarLen64 where
  data : Bytes
  deriving DecidableEq, Repr

/-- `serialization/varlen.rs:12,18,24`. -/
instance : Ipv8Payload VarLen16 := ⟨⟩
instance : Ipv8Payload VarLen32 := ⟨⟩
instance : Ipv8Payload VarLen64 := ⟨⟩

/-- `serialization/varlen.rs:67-87`. -/
instance : Serialize VarLen16 where
  ser v :=
    let length := v.data.length
    if length > 0xffff then
      .err (.custom "Data too large to fit in a VarLen16. Must be less than 65536 bytes.")
    else .ok (.u16 (UInt16.ofNat length) :: v.data.map .u8)

/-- `serialization/varlen.rs:26-65`, `deserialize_tuple(1 << 16, …)`: one element of the budget goes to
the length, one to each byte. -/
instance : Deserialize VarLen16 where
  de e := do
    let (length, n) ← field (deU16 e) (.invalidLength 1) (2 ^ 16)
    let (res, _) ← repeatField deU8 (.invalidLength 1) length.toNat n
    pure ⟨res⟩

/-- `serialization/varlen.rs:129-149`. -/
instance : Serialize VarLen32 where
  ser v :=
    let length := v.data.length
    if length > 0xffffffff then
      .err (.custom "Data too large to fit in a VarLen32. Must be less than 4294967295 bytes.")
    else .ok (.u32 (UInt32.ofNat length) :: v.data.map .u8)

/-- `serialization/varlen.rs:89-127`, `deserialize_tuple(1 << 32, …)`. -/
instance : Deserialize VarLen32 where
  de e := do
    let (length, n) ← field (deU32 e) (.invalidLength 1) (2 ^ 32)
    let (res, _) ← repeatField deU8 (.invalidLength 1) length.toNat n
    pure ⟨res⟩

/-- `serialization/varlen.rs:22` (derived, newtype around `Vec<u8>`). -/
instance : Serialize VarLen64 where
  ser v := serVec v.data

/-- `serialization/varlen.rs:22` (derived). -/
instance : Deserialize VarLen64 where
  de e := do
    let res ← deVec e deU8
    pure ⟨res⟩

/-! ## `serialization/rawend.rs` -/

/-- `serialization/rawend.rs:9`. -/
structure RawEnd where
  data : Bytes
  deriving DecidableEq, Repr

/-- `serialization/rawend.rs:11-22`. -/
instance : Serialize RawEnd where
  ser v := .ok (v.data.map .u8)

/-- `serialization/rawend.rs:41-48`: `while let Ok(item) = seq.next_element()`, pushing until the
element budget is exhausted (`None`) or a read fails.  A failed one-byte read leaves the reader where
it was (at the end). -/
def rawLoop : (budget : Nat) → Bytes → Bytes × Bytes
  | 0, r => ([], r)
  | n + 1, r =>
    match deU8 r with
    | .ok (b, r') =>
      let (bs, r'') := rawLoop n r'
      (b :: bs, r'')
    | .err _ => ([], r)
    | .panic => ([], r)

/-- `serialization/rawend.rs:24-54`, `deserialize_tuple(std::usize::MAX, …)`. -/
instance : Deserialize RawEnd where
  de _ := fun r =>
    let (res, r') := rawLoop usizeMax r
    .ok (⟨res⟩, r')

/-! ## `serialization/header.rs` -/

/-- `serialization/header.rs:11-14`. -/
inductive HeaderVersion
  | PyIPV8Header
  deriving DecidableEq, Repr

/-- `serialization/header.rs:21-30`. -/
structure Header where
  size : Nat
  version : HeaderVersion
  midHash : Option Bytes
  messageType : Option UInt64
  deriving DecidableEq, Repr

/-- `serialization/header.rs:78`. -/
def PY_IPV8_HEADER_SIZE : Nat := 23

/-- The struct literal in `serialization/header.rs:35-40`, over a mid given as a byte string. -/
def Header.ofMid (mid : Bytes) (messageType : UInt8) : Header where
  size := PY_IPV8_HEADER_SIZE
  version := .PyIPV8Header
  midHash := some mid
  messageType := some messageType.toUInt64

/-- `serialization/header.rs:34-41`. -/
def Header.pyIpv8Header (mid : FixedBytes 20) (messageType : UInt8) : Header :=
  Header.ofMid mid.1 messageType

/-- `serialization/header.rs:83-122`: version as `u16`, every byte of the mid (its length is not
checked), the message type cast with `as u8` (truncating). -/
instance : Serialize Header where
  ser h :=
    match h.version with
    | .PyIPV8Header => do
      let hash ← Outcome.ofOption
        (.custom "mid_hash was empty and this wasn't expected") h.midHash
      let messageType ← Outcome.ofOption
        (.custom "Message type was empty and this wasn't expected") h.messageType
      pure (.u16 2 :: (hash.map .u8 ++ [.u8 messageType.toUInt8]))

/-- The error every failing branch of `serialization/header.rs:153-178,186-194` raises. -/
def noValidHeader : Error := .custom "No valid header type could be determined"

/-- `serialization/header.rs:125-208`, `deserialize_tuple(std::usize::MAX, …)`.  The `mid_hash` array
filled by the loop at 185-191 is the list of the 20 elements read. -/
instance : Deserialize Header where
  de _ := do
    let (v0, n) ← field deU8 noValidHeader usizeMax
    let (v1, n) ← field deU8 noValidHeader n
    if [v0, v1] = [0, 2] then
      let (midHash, n) ← repeatField deU8 noValidHeader 20 n
      let (messageType, _) ← field deU8 noValidHeader n
      pure (Header.ofMid midHash messageType)
    else De.fail noValidHeader

end Ipv8
