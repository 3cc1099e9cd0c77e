import Verif.Model.Bytes

/-!
# Names of TLS ciphers and protocol versions (tlsnames.go:14-124, sinksmtp.go:479-507)
-/

namespace Sink

/-- `cipherNames`, tlsnames.go:14-124. -/
def cipherNames : List (UInt16 × Str) := [
  (0x0000, b!"NULL-CIPHER-ERROR"),
  (0x0004, b!"SSLv3:RC4-MD5:128"),
  (0x0005, b!"SSLv3:RC4-SHA:128"),
  (0x0007, b!"SSLv3:IDEA-CBC-SHA:128"),
  (0x000A, b!"SSLv3:DES-CBC3-SHA:168"),
  (0x0013, b!"SSLv3:EDH-DSS-DES-CBC3-SHA:168"),
  (0x0016, b!"SSLv3:EDH-RSA-DES-CBC3-SHA:168"),
  (0x001F, b!"SSLv3:KRB5-DES-CBC3-SHA:168"),
  (0x0020, b!"SSLv3:KRB5-RC4-SHA:128"),
  (0x0021, b!"SSLv3:KRB5-IDEA-CBC-SHA:128"),
  (0x0023, b!"SSLv3:KRB5-DES-CBC3-MD5:168"),
  (0x0024, b!"SSLv3:KRB5-RC4-MD5:128"),
  (0x0025, b!"SSLv3:KRB5-IDEA-CBC-MD5:128"),
  (0x002F, b!"SSLv3:AES128-SHA:128"),
  (0x0032, b!"SSLv3:DHE-DSS-AES128-SHA:128"),
  (0x0033, b!"SSLv3:DHE-RSA-AES128-SHA:128"),
  (0x0035, b!"SSLv3:AES256-SHA:256"),
  (0x0038, b!"SSLv3:DHE-DSS-AES256-SHA:256"),
  (0x0039, b!"SSLv3:DHE-RSA-AES256-SHA:256"),
  (0x003C, b!"TLSv1.2:AES128-SHA256:128"),
  (0x003D, b!"TLSv1.2:AES256-SHA256:256"),
  (0x0040, b!"TLSv1.2:DHE-DSS-AES128-SHA256:128"),
  (0x0041, b!"SSLv3:CAMELLIA128-SHA:128"),
  (0x0044, b!"SSLv3:DHE-DSS-CAMELLIA128-SHA:128"),
  (0x0045, b!"SSLv3:DHE-RSA-CAMELLIA128-SHA:128"),
  (0x0067, b!"TLSv1.2:DHE-RSA-AES128-SHA256:128"),
  (0x006A, b!"TLSv1.2:DHE-DSS-AES256-SHA256:256"),
  (0x006B, b!"TLSv1.2:DHE-RSA-AES256-SHA256:256"),
  (0x0084, b!"SSLv3:CAMELLIA256-SHA:256"),
  (0x0087, b!"SSLv3:DHE-DSS-CAMELLIA256-SHA:256"),
  (0x0088, b!"SSLv3:DHE-RSA-CAMELLIA256-SHA:256"),
  (0x008A, b!"SSLv3:PSK-RC4-SHA:128"),
  (0x008B, b!"SSLv3:PSK-3DES-EDE-CBC-SHA:168"),
  (0x008C, b!"SSLv3:PSK-AES128-CBC-SHA:128"),
  (0x008D, b!"SSLv3:PSK-AES256-CBC-SHA:256"),
  (0x0090, b!"SSLv3:DHE-PSK-AES128-CBC-SHA:128"),
  (0x0091, b!"SSLv3:DHE-PSK-AES256-CBC-SHA:256"),
  (0x0096, b!"SSLv3:SEED-SHA:128"),
  (0x0099, b!"SSLv3:DHE-DSS-SEED-SHA:128"),
  (0x009A, b!"SSLv3:DHE-RSA-SEED-SHA:128"),
  (0x009C, b!"TLSv1.2:AES128-GCM-SHA256:128"),
  (0x009D, b!"TLSv1.2:AES256-GCM-SHA384:256"),
  (0x009E, b!"TLSv1.2:DHE-RSA-AES128-GCM-SHA256:128"),
  (0x009F, b!"TLSv1.2:DHE-RSA-AES256-GCM-SHA384:256"),
  (0x00A2, b!"TLSv1.2:DHE-DSS-AES128-GCM-SHA256:128"),
  (0x00A3, b!"TLSv1.2:DHE-DSS-AES256-GCM-SHA384:256"),
  (0x00A8, b!"TLSv1.2:PSK-AES128-GCM-SHA256:128"),
  (0x00A9, b!"TLSv1.2:PSK-AES256-GCM-SHA384:256"),
  (0x00AA, b!"TLSv1.2:DHE-PSK-AES128-GCM-SHA256:128"),
  (0x00AB, b!"TLSv1.2:DHE-PSK-AES256-GCM-SHA384:256"),
  (0x00AE, b!"TLSv1:PSK-AES128-CBC-SHA256:128"),
  (0x00B2, b!"TLSv1:DHE-PSK-AES128-CBC-SHA256:128"),
  (0x1301, b!"TLSv1.3:TLS_AES_128_GCM_SHA256:128"),
  (0x1302, b!"TLSv1.3:TLS_AES_256_GCM_SHA384:256"),
  (0x1303, b!"TLSv1.3:TLS_CHACHA20_POLY1305_SHA256:256"),
  (0x1304, b!"TLSv1.3:TLS_AES_128_CCM_SHA256:128"),
  (0xC002, b!"SSLv3:ECDH-ECDSA-RC4-SHA:128"),
  (0xC003, b!"SSLv3:ECDH-ECDSA-DES-CBC3-SHA:168"),
  (0xC004, b!"SSLv3:ECDH-ECDSA-AES128-SHA:128"),
  (0xC005, b!"SSLv3:ECDH-ECDSA-AES256-SHA:256"),
  (0xC007, b!"SSLv3:ECDHE-ECDSA-RC4-SHA:128"),
  (0xC008, b!"SSLv3:ECDHE-ECDSA-DES-CBC3-SHA:168"),
  (0xC009, b!"TLSv1:ECDHE-ECDSA-AES128-SHA:128"),
  (0xC00A, b!"TLSv1:ECDHE-ECDSA-AES256-SHA:256"),
  (0xC00C, b!"SSLv3:ECDH-RSA-RC4-SHA:128"),
  (0xC00D, b!"SSLv3:ECDH-RSA-DES-CBC3-SHA:168"),
  (0xC00E, b!"SSLv3:ECDH-RSA-AES128-SHA:128"),
  (0xC00F, b!"SSLv3:ECDH-RSA-AES256-SHA:256"),
  (0xC011, b!"SSLv3:ECDHE-RSA-RC4-SHA:128"),
  (0xC012, b!"SSLv3:ECDHE-RSA-DES-CBC3-SHA:168"),
  (0xC013, b!"TLSv1:ECDHE-RSA-AES128-SHA:128"),
  (0xC014, b!"TLSv1:ECDHE-RSA-AES256-SHA:256"),
  (0xC023, b!"TLSv1.2:ECDHE-ECDSA-AES128-SHA256:128"),
  (0xC024, b!"TLSv1.2:ECDHE-ECDSA-AES256-SHA384:256"),
  (0xC025, b!"TLSv1.2:ECDH-ECDSA-AES128-SHA256:128"),
  (0xC026, b!"TLSv1.2:ECDH-ECDSA-AES256-SHA384:256"),
  (0xC027, b!"TLSv1.2:ECDHE-RSA-AES128-SHA256:128"),
  (0xC028, b!"TLSv1.2:ECDHE-RSA-AES256-SHA384:256"),
  (0xC029, b!"TLSv1.2:ECDH-RSA-AES128-SHA256:128"),
  (0xC02A, b!"TLSv1.2:ECDH-RSA-AES256-SHA384:256"),
  (0xC02B, b!"TLSv1.2:ECDHE-ECDSA-AES128-GCM-SHA256:128"),
  (0xC02C, b!"TLSv1.2:ECDHE-ECDSA-AES256-GCM-SHA384:256"),
  (0xC02D, b!"TLSv1.2:ECDH-ECDSA-AES128-GCM-SHA256:128"),
  (0xC02E, b!"TLSv1.2:ECDH-ECDSA-AES256-GCM-SHA384:256"),
  (0xC02F, b!"TLSv1.2:ECDHE-RSA-AES128-GCM-SHA256:128"),
  (0xC030, b!"TLSv1.2:ECDHE-RSA-AES256-GCM-SHA384:256"),
  (0xC031, b!"TLSv1.2:ECDH-RSA-AES128-GCM-SHA256:128"),
  (0xC032, b!"TLSv1.2:ECDH-RSA-AES256-GCM-SHA384:256"),
  (0xC035, b!"TLSv1:ECDHE-PSK-AES128-CBC-SHA:128"),
  (0xC036, b!"TLSv1:ECDHE-PSK-AES256-CBC-SHA:256"),
  (0xC037, b!"TLSv1:ECDHE-PSK-AES128-CBC-SHA256:128"),
  (0xC09C, b!"TLSv1.2:AES128-CCM:128"),
  (0xC09D, b!"TLSv1.2:AES256-CCM:256"),
  (0xC09E, b!"TLSv1.2:DHE-RSA-AES128-CCM:128"),
  (0xC09F, b!"TLSv1.2:DHE-RSA-AES256-CCM:256"),
  (0xC0A4, b!"TLSv1.2:PSK-AES128-CCM:128"),
  (0xC0A5, b!"TLSv1.2:PSK-AES256-CCM:256"),
  (0xC0A6, b!"TLSv1.2:DHE-PSK-AES128-CCM:128"),
  (0xC0A7, b!"TLSv1.2:DHE-PSK-AES256-CCM:256"),
  (0xC0AC, b!"TLSv1.2:ECDHE-ECDSA-AES128-CCM:128"),
  (0xC0AD, b!"TLSv1.2:ECDHE-ECDSA-AES256-CCM:256"),
  (0xCCA8, b!"TLSv1.2:ECDHE-RSA-CHACHA20-POLY1305:256"),
  (0xCCA9, b!"TLSv1.2:ECDHE-ECDSA-CHACHA20-POLY1305:256"),
  (0xCCAA, b!"TLSv1.2:DHE-RSA-CHACHA20-POLY1305:256"),
  (0xCCAB, b!"TLSv1.2:PSK-CHACHA20-POLY1305:256"),
  (0xCCAC, b!"TLSv1.2:ECDHE-PSK-CHACHA20-POLY1305:256"),
  (0xCCAD, b!"TLSv1.2:DHE-PSK-CHACHA20-POLY1305:256")]

/-- One lower case hexadecimal digit. -/
def hexDigit (n : Nat) : Byte := if n < 10 then 48 + UInt8.ofNat n else 87 + UInt8.ofNat n

/-- `%04x` of a `uint16`. -/
def hex4 (v : UInt16) : Str :=
  let n := v.toNat
  [hexDigit (n / 4096 % 16), hexDigit (n / 256 % 16), hexDigit (n / 16 % 16), hexDigit (n % 16)]

/-- `tlsProtoVersion`, sinksmtp.go:479-495. -/
def tlsProtoVersion (v : UInt16) : Str :=
  if v = 0x0300 then b!"SSLv3"
  else if v = 0x0301 then b!"TLSv1.0"
  else if v = 0x0302 then b!"TLSv1.1"
  else if v = 0x0303 then b!"TLSv1.2"
  else if v = 0x0304 then b!"TLSv1.3"
  else b!"tls-0x" ++ hex4 v

/-- The parts of `x509.Certificate` that `tlsName` reads. -/
structure X509 where
  cn : Str
  dnsNames : List Str
  deriving DecidableEq, Repr

/-- `tlsName`, sinksmtp.go:500-508. -/
def tlsName (c : X509) : Str :=
  if c.cn ≠ [] then c.cn
  else match c.dnsNames with
    | d :: _ => d
    | [] => b!"<no CN or DNS Names>"

/-- What the session knows about TLS on the connection: `convo.TLSOn` and the parts of `convo.TLSState` the code reads.
`verified` is `VerifiedChains[0][0]` if there is a chain (crypto/tls makes no empty chains); `peer` is
`PeerCertificates[0]`; `verifyErr` is the error of `Verify` in `tlsTryVerifyConnection` (sinksmtp.go:510-530), an oracle. -/
structure TlsState where
  on : Bool := false
  cipher : UInt16 := 0
  version : UInt16 := 0
  servername : Str := []
  verified : Option X509 := none
  peer : Option X509 := none
  verifyErr : Option Str := none
  deriving DecidableEq, Repr

/-- `tlsTryVerifyConnection`, sinksmtp.go:510-530: the error. -/
def TlsState.tryVerify (t : TlsState) : Option Str := if t.verified.isSome then none else t.verifyErr

end Sink
