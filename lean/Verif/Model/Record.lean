import Verif.Model.Tls
import Verif.Model.Eval

/-!
# Message records, save names and the message log (sinksmtp.go:435-469, 546-622)

SHA1 (as hexadecimal text) and `net/mail` are oracles.
-/

namespace Sink

/-- `smtpTransaction`, sinksmtp.go:395-433.  `hasLog` is `log != nil`; `when_` is the time as `Format(TimeNZ)` prints it, the
only use the code makes of it. -/
structure Trans where
  raddr : Str := []
  laddr : Str := []
  rip : Str := []
  lip : Str := []
  rdns : RDNS := {}
  heloname : Str := []
  from_ : Str := []
  rcptto : List Str := []
  data : Str := []
  hash : Str := []
  bodyhash : Str := []
  when_ : Str := []
  savedir : Str := []
  tlson : Bool := false
  cipher : UInt16 := 0
  tlsversion : UInt16 := 0
  servername : Str := []
  peername : Str := []
  tlsverified : Bool := false
  hasLog : Bool := false
  lastmsg : Str := []
  lastamsg : Str := []
  lastresgood : Bool := false
  deriving DecidableEq, Repr

/-- What rule evaluation reads of the transaction. -/
def Trans.r (t : Trans) : TransR := ⟨t.rip, t.lip, t.rdns, t.rcptto, t.tlson⟩

/-- Outcome of `mail.ReadMessage` and reading its body, sinksmtp.go:448-455. -/
inductive MailRead
  | noParse
  | noBody
  | body (b : Str)
  deriving DecidableEq, Repr

/-- The oracles: `genHash` (sinksmtp.go:437-441) and `net/mail`. -/
structure Hashes where
  gen : Str → Str
  mail : Str → MailRead

/-- `getHashes`, sinksmtp.go:443-458. -/
def getHashes (H : Hashes) (data : Str) : Str × Str :=
  (H.gen data, match H.mail data with
    | .noParse => b!"<cannot-parse-message>"
    | .noBody => b!"<cannot-read-body?>"
    | .body b => H.gen b)

/-- `writeDNSList`, sinksmtp.go:460-469. -/
def dnsListText (pref : Str) (l : List Str) : Str :=
  if l.length = 0 then [] else pref ++ l.flatMap (fun e => b!" " ++ e) ++ b!"\n"

/-- The TLS line of `msgDetails`, sinksmtp.go:566-582. -/
def tlsText (t : Trans) : Str :=
  if t.tlson then
    b!"tls on cipher 0x" ++ hex4 t.cipher ++
    (match cipherNames.lookup t.cipher with
      | some cn => if cn ≠ [] then b!" name " ++ cn else []
      | none => []) ++
    b!" proto " ++ tlsProtoVersion t.tlsversion ++
    (if t.servername ≠ [] then b!" server-name '" ++ t.servername ++ b!"'" else []) ++
    (if t.peername ≠ [] then b!" client-name '" ++ t.peername ++ b!"'" else []) ++
    (if t.tlsverified then b!" client-name-verified" else []) ++ b!"\n"
  else []

/-- `outbuf2` of `msgDetails`, sinksmtp.go:557-590: everything but the id line. -/
def metaText (t : Trans) : Str :=
  b!"remote " ++ (if t.rip = [] then t.raddr else t.rip) ++ b!" to " ++ t.laddr ++ b!" with helo '" ++ t.heloname ++ b!"'\n" ++
  dnsListText b!"remote-dns" t.rdns.verified ++
  dnsListText b!"remote-dns-nofwd" t.rdns.nofwd ++
  dnsListText b!"remote-dns-inconsist" t.rdns.inconsist ++
  tlsText t ++
  b!"from <" ++ t.from_ ++ b!">\n" ++
  t.rcptto.flatMap (fun a => b!"to <" ++ a ++ b!">\n") ++
  b!"hash " ++ t.hash ++ b!" bytes " ++ decDigits t.data.length ++ b!"\n" ++
  b!"bodyhash " ++ t.bodyhash ++ b!"\n" ++
  b!"body\n" ++ t.data

/-- The id line, sinksmtp.go:554-555. -/
def idLine (prefix_ : Str) (t : Trans) : Str := b!"id " ++ prefix_ ++ b!" " ++ t.raddr ++ b!" " ++ t.when_ ++ b!"\n"

/-- `msgDetails`, sinksmtp.go:550-595. -/
def msgDetails (H : Hashes) (prefix_ : Str) (t : Trans) : Str × Str := (idLine prefix_ t ++ metaText t, H.gen (metaText t))

/-- The line `logMessage` writes, sinksmtp.go:604-621. -/
def logLine (prefix_ : Str) (t : Trans) : Str :=
  t.when_ ++ b!" [" ++ prefix_ ++ b!"] from " ++ t.raddr ++ b!" / " ++
  b!"<" ++ t.from_ ++ b!"> to" ++ t.rcptto.flatMap (fun a => b!" <" ++ a ++ b!">") ++
  b!": message " ++ decDigits t.data.length ++ b!" bytes hash " ++ t.hash ++ b!" body " ++ t.bodyhash ++
  b!" | local " ++ t.laddr ++ b!" helo '" ++ t.heloname ++ b!"'" ++
  (if t.tlson then b!" tls:cipher 0x" ++ hex4 t.cipher ++ b!" tls:proto 0x" ++ hex4 t.tlsversion else []) ++ b!"\n"

/-- The name chosen by `handleMessage`, sinksmtp.go:650-659: `none` is the panic for an unknown `hashtype`. -/
def saveName (H : Hashes) (hashtype prefix_ : Str) (t : Trans) : Option Str :=
  if hashtype = b!"msg" then some t.hash
  else if hashtype = b!"full" then some (msgDetails H prefix_ t).2
  else if hashtype = b!"all" then some (H.gen (msgDetails H prefix_ t).1)
  else none

end Sink
