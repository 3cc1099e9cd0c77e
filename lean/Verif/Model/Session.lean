import Verif.Model.IpMap
import Verif.Model.Conncfg
import Verif.Model.Record

/-!
# One SMTP connection (sinksmtp.go:624-852, 870-1235)

`process` is a sequence of atomic steps, so that the steps of several connections can be interleaved in any order: a step
contains at most one operation on a shared table or on the file system.  The smtpd library (package
github.com/siebenmann/smtpd) is outside: it delivers events in an order that is not restricted here, and it receives the
replies listed in `Reply`.  Accepted EHLO and HELO commands are answered by the library itself (sinksmtp.go:1052-1075 does
not call it).

The calls of `updateTimeOf` and what the library is told in `cfg` are in `Model/Greet.lean`; nothing here depends on them.  Not modelled: the
closing of the connection.
-/

namespace Sink

/-- What the session tells the smtpd library. -/
inductive Reply
  | accept
  | acceptMsg (m : Str)
  | acceptData (id : Str)
  | reject
  | rejectMsg (m : Str)
  | tempfail
  | tempfailMsg (m : Str)
  deriving DecidableEq, Repr

/-- The `events` counters changed by `process`, sinksmtp.go:33-44. -/
inductive Counter
  | yakkers | notlscnt | ehlo | ehloAccept | tlson | starttls | mailfrom | mailfromAccept | rsets | yakads | rsetdrops
  | rcptto | rcpttoAccept | data | dataAccept | messages | tlserrs | quits | aborts | yakforces | abandons | refuseds
  | ruleserr
  deriving DecidableEq, Repr

/-- Effects visible outside the connection's own state. -/
inductive Out
  | reply (r : Reply)
  /-- A record given to the SMTP log (`smtpLogger.Write`). -/
  | log (s : Str)
  /-- A line written to the message log. -/
  | msglog (s : Str)
  /-- A line written to the do-nothing client log. -/
  | dnlog (s : Str)
  | count (c : Counter)
  /-- `dblcounts.Add`, `sblcounts.Add`, `loccounts.Add`. -/
  | dblcount (l : List Str)
  | sblcount (l : List Str)
  | loccount (l : Str)
  /-- `warnf` and `warnonce`. -/
  | warn (s : Str)
  | warnOnce (s : Str)
  deriving DecidableEq, Repr

/-- Settings of the server (global variables, sinksmtp.go:207-208, 1271-1286, 1352) and the arguments of `process` that are
the same for all connections.  `smtplog`, `dnlog`, `logf` say whether the writer is not nil. -/
structure Conf where
  yakCount : Int := 0
  yakTimeout : Int := 0
  minphase : Str := b!"helo"
  savedir : Str := []
  hashtype : Str := b!"all"
  smtplog : Bool := false
  dnlog : Bool := false
  logf : Bool := false
  srvname : Str := []
  connfile : Str := []
  rulefiles : List Str := []
  base : List Rule := []
  stallall : List Rule := []
  certs : List TlsCert := []

/-- `tlsTimeout`, sinksmtp.go:204, in nanoseconds. -/
def tlsTimeout : Int := 72 * 3600 * 1000000000

/-- What belongs to one connection: the outside world as it sees it, the addresses (`net.SplitHostPort` applied to the
remote and local address gives `rip` and `lip`), the log prefix "pid/cid". -/
structure Env where
  W : World
  H : Hashes
  /-- The rule files, the number of free descriptors, the certificate files. -/
  fs : Files
  fds : Nat
  pairs : PairOracle
  raddr : Str
  laddr : Str
  rip : Str
  lip : Str
  prefix_ : Str

/-- A file: its contents, and whether `Sync` succeeded after the last write. -/
structure File where
  content : Str
  synced : Bool
  deriving DecidableEq, Repr

abbrev FS := Str → Option File

/-- What connections share: the two IP tables and the file system. -/
structure Shared where
  yak : IpMap := {}
  notls : IpMap := {}
  fs : FS := fun _ => none

/-- `tls.Config`: only `ClientAuth` is changed after creation; `true` is `RequestClientCert`. -/
structure TlsConf where
  certs : List TlsCert
  askClient : Bool
  deriving DecidableEq, Repr

/-- Where `handleMessage` is between `OpenFile` and `Close`. -/
inductive SavePc
  | open_ | write | sync | close
  deriving DecidableEq, Repr

/-- Where `process` is. -/
inductive Pc
  /-- before `notls.Lookup`, sinksmtp.go:985 -/
  | tls
  /-- before the reverse lookup, sinksmtp.go:1024 -/
  | connect
  /-- at the top of the loop, sinksmtp.go:1045 -/
  | ready
  /-- in `handleMessage`, sinksmtp.go:626: target file, record, message id -/
  | save (p : SavePc) (tgt rec_ transid : Str)
  /-- after `handleMessage`, with its error, if any, sinksmtp.go:1146 -/
  | decide (transid : Str) (failed : Bool)
  | closed
  deriving DecidableEq, Repr

/-- The local variables of `process`. -/
structure Sess where
  pc : Pc := .tls
  trans : Trans := {}
  c : Ctx := {}
  rulesgood : Bool := false
  gotsomewhere : Bool := false
  stall : Bool := false
  sesscounts : Bool := false
  /-- `cfg.LocalName`, sinksmtp.go:967 -/
  sname : Str := []
  /-- `certs` after the connection parameters, sinksmtp.go:952-965 -/
  certs : List TlsCert := []
  /-- `convo.Config.TLSConfig` -/
  tlsCfg : Option TlsConf := none

/-- Events of the smtpd library (`convo.Next()`). -/
inductive SEv
  | helo (isHelo : Bool) (arg : Str)
  | mailfrom (arg : Str)
  | rcptto (arg : Str)
  | data
  | gotdata (arg : Str)
  | tlserror
  | done
  | abort
  /-- anything else `process` ignores -/
  | other
  deriving DecidableEq, Repr

/-- Outcome of a file operation as far as the file system leaves it open.  `failed m`: an error with text `m`; for a write,
`n` bytes were written before it; a failing close may cut the file to `n` bytes. -/
inductive SysRes
  | ok
  | failed (n : Nat) (m : Str)
  deriving DecidableEq, Repr

/-- One step's input: the event with the state of TLS on the connection, or the outcome of a system call; the time, and the
time as text. -/
structure Inp where
  ev : SEv := .other
  tls : TlsState := {}
  sys : SysRes := .ok
  now : Int := 0
  nowText : Str := []
  deriving DecidableEq, Repr

/-- The result of a step. -/
abbrev SRes := Except Panic (Sess × Shared × List Out)

/-- `c.trans.log.Write(...)`: a nil logger is dereferenced, sinksmtp.go:369-388. -/
def logWrite (t : Trans) (s : Str) : Except Panic (List Out) := if t.hasLog then .ok [.log s] else .error .nilDeref

/-- `writeLog`, sinksmtp.go:854-860. -/
def writeLog (t : Trans) (s : Str) : List Out := if t.hasLog then [.log s] else []

/-- `strings.LastIndex(txt, "/")` and the rest after it, sinksmtp.go:695-699. -/
def afterSlash (txt : Str) : Option Str :=
  match (txt.reverse.takeWhile (· != c!"/")).reverse with
  | [] => none
  | w => if w.length = txt.length then none else some w

/-- `getSBLHits`, sinksmtp.go:684-702. -/
def getSBLHits (W : World) (rip : Str) (t : Trace) : Except Panic (List Str × Trace) :=
  match splitOn c!"." rip with
  | s0 :: s1 :: s2 :: s3 :: _ =>
    let ln := s3 ++ b!"." ++ s2 ++ b!"." ++ s1 ++ b!"." ++ s0 ++ b!".sbl.spamhaus.org."
    match W.lookupTXT t.length ln with
    | .error _ => .ok ([], .lookupTXT ln :: t)
    | .ok txts => .ok (sortStrs (txts.filterMap afterSlash), .lookupTXT ln :: t)
  | _ => .error .index

/-- The SBL part of `logDnsbls`, sinksmtp.go:724-735. -/
def logSbls (W : World) (rip : Str) : List Str → Trace → Except Panic (List Out × Trace)
  | [], t => .ok ([], t)
  | h :: hs, t =>
    if h = b!"sbl.spamhaus.org." then do
      let (sbls, t) ← getSBLHits W rip t
      let (o, t) ← logSbls W rip hs t
      if sbls.length > 0 then
        return (.log (b!"! SBL records: " ++ join b!" " sbls ++ b!"\n") :: .sblcount sbls :: o, t)
      else return (o, t)
    else logSbls W rip hs t

/-- `logDnsbls`, sinksmtp.go:707-736.  Sorting happens in place in Go; the deferred copy of the slice (rules.go:526) may be
sorted with it, which cannot be seen because it is only ever used through this function. -/
def logDnsbls (W : World) (t : Trans) (c : Ctx) : Except Panic (Trans × Ctx × List Out) :=
  if c.dnsblhit.length = 0 ∨ t.hasLog = false then .ok (t, c, [])
  else
    let hits := sortStrs c.dnsblhit
    let c := { c with dnsblhit := hits }
    let lmsg := b!"! dnsbl hit: " ++ join b!" " hits ++ b!"\n"
    if lmsg = t.lastmsg then .ok (t, c, [])
    else match logSbls W t.rip hits c.trace with
      | .error p => .error p
      | .ok (o, tr) => .ok ({ t with lastmsg := lmsg }, { c with trace := tr }, .log lmsg :: .dblcount hits :: o)

/-- The domain error line of `decider`, sinksmtp.go:773-779. -/
def logDomerr (t : Trans) (c : Ctx) : Trans × List Out :=
  match c.domerr with
  | none => (t, [])
  | some e =>
    if t.hasLog = false then (t, [])
    else
      let lmsg := b!"! " ++ e ++ b!"\n"
      if lmsg ≠ t.lastamsg then ({ t with lastamsg := lmsg }, [.log lmsg]) else (t, [])

/-- The rule note of `decider`, sinksmtp.go:789-791. -/
def logNote (t : Trans) (c : Ctx) : Except Panic (List Out) :=
  match c.withprops.note with
  | none => .ok []
  | some n => if n = [] then .ok [] else logWrite t (b!"! rule note: " ++ n ++ b!"\n")

/-- The `tls-opt` part of `decider`, sinksmtp.go:793-802. -/
def tlsOpt (c : Ctx) (t : Option TlsConf) : Option TlsConf :=
  if c.withprops.tlsOpt = some b!"off" then none
  else if c.withprops.tlsOpt = some b!"no-client" then t.map (fun x => { x with askClient := false })
  else t

/-- `pluralRecips`, sinksmtp.go:739-744. -/
def pluralRecips (t : Trans) : Str := if t.rcptto.length > 1 then b!"those addresses" else b!"that address"

/-- The rejection of `decider`, sinksmtp.go:822-840. -/
def rejectReply (ph : Phase) (t : Trans) (msg id : Str) : Reply :=
  if msg ≠ [] then .rejectMsg (if id ≠ [] then msg ++ b!"\nRejected with ID " ++ id else msg)
  else if id ≠ [] ∧ ph = .message then
    .rejectMsg (b!"We do not consent to you emailing " ++ pluralRecips t ++ b!"\nRejected with ID " ++ id)
  else if ph = .message ∨ ph = .data then .rejectMsg (b!"We do not consent to you emailing " ++ pluralRecips t)
  else if ph = .rto then .rejectMsg b!"We do not consent to you emailing that address"
  else .reject

/-- `decider`, sinksmtp.go:768-852: whether the command was refused, the session, the effects. -/
def decider (E : Env) (ph : Phase) (evt : Evt) (id : Str) (s : Sess) : Except Panic (Bool × Sess × List Out) := do
  let (res, c) ← Decide E.W s.trans.r ph evt s.c
  let (t, c, o1) ← logDnsbls E.W s.trans c
  let (t, o2) := logDomerr t c
  let sd := c.withprops.savedir.getD []
  let t := if sd ≠ [] then { t with savedir := sd } else t
  let o3 ← logNote t c
  let s := { s with c := c, tlsCfg := tlsOpt c s.tlsCfg }
  let o := o1 ++ o2 ++ o3
  if res = .noresult ∨ res = .accept then return (false, { s with trans := { t with lastresgood := true } }, o)
  let t := { t with lastresgood := false }
  let s := { s with trans := t }
  if ph = .connect then return (res = .reject, s, o)
  let msg := c.withprops.message.getD []
  match res with
  | .reject => return (true, s, o ++ [.reply (rejectReply ph t msg id)])
  | .stall => return (true, s, o ++ [.reply (if msg ≠ [] then .tempfailMsg msg else .tempfail)])
  | _ => .error .impossible

/-- `doAccept`, sinksmtp.go:746-759. -/
def doAccept (c : Ctx) (transid : Str) : Reply :=
  let msg := c.withprops.message.getD []
  if msg ≠ [] then .acceptMsg (if transid ≠ [] then msg ++ b!"\nAccepted with ID " ++ transid else msg)
  else if transid ≠ [] then .acceptData transid
  else .accept

/-- `%d` of an `int`. -/
def decInt (n : Int) : Str := if n < 0 then b!"-" ++ decDigits n.natAbs else decDigits n.natAbs

/-- `yakLog`, sinksmtp.go:862-868. -/
def yakLog (cf : Conf) (E : Env) (i : Inp) (t : Trans) (what : Str) : List Out :=
  if cf.dnlog then
    [.dnlog (i.nowText ++ b!" [" ++ E.prefix_ ++ b!"] " ++ what ++ b!" " ++ t.rip ++ b!" -> " ++ t.laddr ++ b!"\n")]
  else []

/-- The server name, sinksmtp.go:933-949. -/
def serverName (cf : Conf) (E : Env) (t : Trace) : Except Panic (Str × Trace) :=
  if cf.srvname ≠ [] then .ok (cf.srvname, t)
  else match E.W.lookupAddr t.length E.lip with
    | .error _ => .ok (E.laddr, .lookupAddr E.lip :: t)
    | .ok [] => .ok (E.laddr, .lookupAddr E.lip :: t)
    | .ok (n :: _) => match n.getLast? with
      | none => .error .index
      | some c => .ok (if c = c!"." then n.dropLast else n, .lookupAddr E.lip :: t)

/-- The connection parameters, sinksmtp.go:951-965: server name, certificates, warning. -/
def connParams (cf : Conf) (E : Env) (sname : Str) (t : Trace) : Str × List TlsCert × Trace × List Out :=
  if cf.connfile = [] then (sname, cf.certs, t, [])
  else
    let t' := .openFile cf.connfile :: t
    match loadConnFile E.pairs (E.W.files t.length cf.connfile) with
    | .error e => (sname, cf.certs, t',
        [.warn (b!"error loading per-connection rules '" ++ cf.connfile ++ b!"': " ++ e ++ b!"\n")])
    | .ok dm => match findDest E.W.lib E.laddr E.lip dm with
      | none => (sname, cf.certs, t', [])
      | some pd => (if pd.myname ≠ [] then pd.myname else sname, pd.certs, t', [])

/-- The beginning of `process`, sinksmtp.go:871-965. -/
def startSess (cf : Conf) (E : Env) (sh : Shared) (i : Inp) : SRes := do
  let (rules, rulesgood, w) ← setupRules E.W.lib E.fs E.fds cf.stallall cf.base cf.rulefiles
  let o0 : List Out := .loccount E.laddr :: (match w with
    | some m => [.warnOnce m, .count .ruleserr]
    | none => [])
  let trans : Trans := { savedir := cf.savedir, raddr := E.raddr, laddr := E.laddr, rip := E.rip, lip := E.lip }
  let ((hit, cnt), yak) := sh.yak.lookup E.rip cf.yakTimeout i.now
  let sh := { sh with yak := yak }
  let stall := decide (cf.yakCount > 0 ∧ hit = true ∧ cnt ≥ cf.yakCount ∧ cf.smtplog = true)
  let o1 := if stall then .count .yakkers :: yakLog cf E i trans b!"connection" else []
  let trans := { trans with hasLog := cf.smtplog && !stall }
  let (sname, t) ← serverName cf E []
  let (sname, certs, t, o2) := connParams cf E sname t
  let c := newContext (if stall then cf.stallall else rules) t
  return ({ pc := .tls, trans := trans, c := c, rulesgood := rulesgood, stall := stall,
            sesscounts := if stall then false else (rulesgood && decide (cf.yakCount > 0)),
            sname := sname, certs := certs }, sh, o0 ++ o1 ++ o2)

/-- Setting up TLS, sinksmtp.go:978-1017. -/
def tlsStep (s : Sess) (sh : Shared) (i : Inp) : SRes :=
  let ((blocktls, blcount), notls) := sh.notls.lookup s.trans.rip tlsTimeout i.now
  let sh := { sh with notls := notls }
  let blocked := blocktls && decide (blcount ≥ 2)
  let cfg : Option TlsConf := if s.certs.length > 0 ∧ blocked = false then some ⟨s.certs, decide (blcount = 0)⟩ else none
  .ok ({ s with pc := .connect, tlsCfg := cfg }, sh, if blocked then [.count .notlscnt] else [])

/-- The reverse lookup and the connect decision, sinksmtp.go:1019-1040. -/
def connectStep (E : Env) (s : Sess) (sh : Shared) (i : Inp) : SRes := do
  let (rdns, t) := lookupAddrVerified E.W s.trans.rip s.c.trace
  let s := { s with trans := { s.trans with rdns := rdns }, c := { s.c with trace := t } }
  let (drop, s, o) ← decider E .connect {} [] s
  if drop then
    return ({ s with pc := .closed }, sh, o ++ (if s.stall then [] else
      writeLog s.trans (b!"! " ++ s.trans.rip ++ b!" dropped on connect due to rule at " ++ i.nowText ++ b!"\n")))
  else return ({ s with pc := .ready }, sh, o)

/-- `tlsClientLog`, sinksmtp.go:534-545. -/
def tlsClientLog (t : Trans) (st : TlsState) : List Out :=
  match st.peer with
  | none => []
  | some p => match st.tryVerify with
    | none => writeLog t (b!"! TLS client certificate for '" ++ tlsName p ++ b!"' verifies.\n")
    | some e => writeLog t (b!"! TLS client certificate for '" ++ tlsName p ++ b!"' doesn't verify: " ++ e ++ b!"\n")

/-- An EHLO or HELO, sinksmtp.go:1050-1075. -/
def heloStep (cf : Conf) (E : Env) (isHelo : Bool) (arg : Str) (s : Sess) (sh : Shared) (i : Inp) : SRes := do
  let (ref, s, o) ← decider E .helo ⟨isHelo, arg⟩ [] s
  if ref then return (s, sh, .count .ehlo :: o)
  let t := { s.trans with heloname := arg, from_ := [], data := [], hash := [], bodyhash := [], rcptto := [] }
  let o := .count .ehlo :: o ++ [.count .ehloAccept]
  let s := { s with gotsomewhere := s.gotsomewhere || decide (cf.minphase = b!"helo") }
  if i.tls.on ∧ t.tlson = false then
    let t := { t with tlson := i.tls.on }
    return ({ s with trans := t }, sh, o ++ [.count .tlson, .count .starttls] ++ tlsClientLog t i.tls)
  else return ({ s with trans := t }, sh, o)

/-- The end of an accepted MAIL FROM, sinksmtp.go:1111-1118. -/
def mailDone (cf : Conf) (arg : Str) (s : Sess) (sh : Shared) (o : List Out) : SRes :=
  .ok ({ s with trans := { s.trans with from_ := arg, data := [], rcptto := [] },
                gotsomewhere := s.gotsomewhere || decide (cf.minphase = b!"from") }, sh,
       o ++ [.reply (doAccept s.c []), .count .mailfromAccept])

/-- A MAIL FROM, sinksmtp.go:1076-1118. -/
def mailStep (cf : Conf) (E : Env) (arg : Str) (s : Sess) (sh : Shared) (i : Inp) : SRes := do
  let (ref, s, o) ← decider E .mfrom ⟨false, arg⟩ [] s
  let o := .count .mailfrom :: o
  if ref then return (s, sh, o)
  if s.trans.from_ ≠ [] ∧ s.gotsomewhere = false ∧ s.sesscounts = true then
    let o := o ++ [.count .rsets]
    let (cnt, yak) := sh.yak.add s.trans.rip cf.yakTimeout i.now
    let sh := { sh with yak := yak }
    if cnt > cf.yakCount then
      return ({ s with pc := .closed }, sh, o ++ [.count .yakads, .count .rsetdrops] ++
        writeLog s.trans (b!"! " ++ s.trans.rip ++ b!" added as a yakker at hit " ++ decInt cnt ++ b!" due to RSET\n") ++
        [.reply (.tempfailMsg b!"Too many unsuccessful delivery attempts")])
    else mailDone cf arg s sh o
  else mailDone cf arg s sh o

/-- A RCPT TO, sinksmtp.go:1119-1129. -/
def rcptStep (cf : Conf) (E : Env) (arg : Str) (s : Sess) (sh : Shared) : SRes := do
  let (ref, s, o) ← decider E .rto ⟨false, arg⟩ [] s
  let o := .count .rcptto :: o
  if ref then return (s, sh, o)
  return ({ s with trans := { s.trans with rcptto := s.trans.rcptto ++ [arg] },
                   gotsomewhere := s.gotsomewhere || decide (cf.minphase = b!"to") }, sh,
          o ++ [.reply (doAccept s.c []), .count .rcpttoAccept])

/-- A DATA command, sinksmtp.go:1130-1139. -/
def dataStep (cf : Conf) (E : Env) (s : Sess) (sh : Shared) : SRes := do
  let (ref, s, o) ← decider E .data {} [] s
  let o := .count .data :: o
  if ref then return (s, sh, o)
  return ({ s with gotsomewhere := s.gotsomewhere || decide (cf.minphase = b!"data") }, sh,
          o ++ [.reply (doAccept s.c []), .count .dataAccept])

/-- The transaction when a message has arrived, sinksmtp.go:1149-1163. -/
def gotTrans (H : Hashes) (arg : Str) (i : Inp) (t : Trans) : Trans :=
  let t := { t with data := arg, when_ := i.nowText, tlson := i.tls.on, cipher := i.tls.cipher,
                    servername := i.tls.servername, tlsversion := i.tls.version }
  let t := match i.tls.verified, i.tls.peer with
    | some x, _ => { t with tlsverified := true, peername := tlsName x }
    | none, some x => { t with peername := tlsName x, tlsverified := i.tls.tryVerify.isNone }
    | none, none => t
  { t with hash := (getHashes H arg).1, bodyhash := (getHashes H arg).2 }

/-- A received message up to the first system call, sinksmtp.go:1141-1164, 626-660. -/
def gotStep (cf : Conf) (E : Env) (arg : Str) (s : Sess) (sh : Shared) (i : Inp) : SRes :=
  let t := gotTrans E.H arg i s.trans
  let s := { s with gotsomewhere := s.gotsomewhere || decide (cf.minphase = b!"message"), trans := t }
  let o := .count .messages :: (if cf.logf then [.msglog (logLine E.prefix_ t)] else [])
  if t.savedir = [] then .ok ({ s with pc := .decide t.hash false }, sh, o)
  else match saveName E.H cf.hashtype E.prefix_ t with
    | none => .error .impossible
    | some n => .ok ({ s with pc := .save .open_ (t.savedir ++ b!"/" ++ n) (msgDetails E.H E.prefix_ t).1 n }, sh, o)

/-- Assignment to one file. -/
def FS.set (fs : FS) (p : Str) (f : File) : FS := fun q => if q = p then some f else fs q

/-- `os.OpenFile(tgt, O_WRONLY|O_CREATE|O_EXCL, 0666)`, sinksmtp.go:664, 676-680.  An error other than that the file exists
(`.failed`) is possible whether it exists or not. -/
def openStep (tgt rec_ id : Str) (s : Sess) (sh : Shared) (r : SysRes) : SRes :=
  match sh.fs tgt, r with
  | some _, .ok => .ok ({ s with pc := .decide id false }, sh, [])
  | none, .ok => .ok ({ s with pc := .save .write tgt rec_ id }, { sh with fs := sh.fs.set tgt ⟨[], false⟩ }, [])
  | _, .failed _ m => .ok ({ s with pc := .decide id true }, sh, [.warn (b!"error writing message file: " ++ m ++ b!"\n")])

/-- `fp.Write(m)`, sinksmtp.go:666-669: the error is only reported. -/
def writeStep (tgt rec_ id : Str) (s : Sess) (sh : Shared) (r : SysRes) : SRes :=
  let s := { s with pc := .save .sync tgt rec_ id }
  match r with
  | .ok => .ok (s, { sh with fs := sh.fs.set tgt ⟨rec_, false⟩ }, [])
  | .failed n m => .ok (s, { sh with fs := sh.fs.set tgt ⟨rec_.take n, false⟩ },
      [.warn (b!"error writing message file: " ++ m ++ b!"\n")])

/-- `fp.Sync()`, sinksmtp.go:670: the error is ignored. -/
def syncStep (tgt rec_ id : Str) (s : Sess) (sh : Shared) (r : SysRes) : SRes :=
  let s := { s with pc := .save .close tgt rec_ id }
  match r, sh.fs tgt with
  | .ok, some f => .ok (s, { sh with fs := sh.fs.set tgt { f with synced := true } }, [])
  | _, _ => .ok (s, sh, [])

/-- `fp.Close()`, sinksmtp.go:671-674. -/
def closeStep (tgt id : Str) (s : Sess) (sh : Shared) (r : SysRes) : SRes :=
  match r, sh.fs tgt with
  | .ok, _ => .ok ({ s with pc := .decide id false }, sh, [])
  | .failed n m, some f => .ok ({ s with pc := .decide id true },
      { sh with fs := sh.fs.set tgt { f with content := f.content.take n } },
      [.warn (b!"error closing message file: " ++ m ++ b!"\n")])
  | .failed _ m, none => .ok ({ s with pc := .decide id true }, sh, [.warn (b!"error closing message file: " ++ m ++ b!"\n")])

/-- The answer to a message, sinksmtp.go:1165-1180. -/
def answerStep (cf : Conf) (E : Env) (id : Str) (failed : Bool) (s : Sess) (sh : Shared) : SRes :=
  if failed then .ok ({ s with pc := .ready, gotsomewhere := true }, sh, [.reply .tempfail])
  else do
    let (ref, s, o) ← decider E .message { arg := s.trans.data } id s
    if ref then return ({ s with pc := .ready }, sh, o)
    return ({ s with pc := .ready, gotsomewhere := s.gotsomewhere || decide (cf.minphase = b!"accepted") }, sh,
            o ++ [.reply (doAccept s.c id)])

/-- The do-nothing bookkeeping at the end, sinksmtp.go:1198-1232. -/
def endStep (cf : Conf) (E : Env) (s : Sess) (sh : Shared) (i : Inp) : Sess × Shared × List Out :=
  let last : List Out := if s.rulesgood ∧ (s.sesscounts = true ∨ cf.yakCount = 0) then
    [.count (if s.trans.lastresgood then .abandons else .refuseds)] else []
  let s' := { s with pc := .closed }
  if s.c.withprops.makeYakker.isSome then
    let (cnt, yak) := sh.yak.set s.trans.rip cf.yakTimeout cf.yakCount i.now
    let o := if cnt ≠ cf.yakCount then
        writeLog s.trans (b!"! " ++ s.trans.rip ++ b!" forced to be a yakker\n") ++
          [.count .yakads, .count .yakforces] ++ yakLog cf E i s.trans b!"force-set"
      else []
    (s', { sh with yak := yak }, o ++ last)
  else if s.gotsomewhere = false ∧ s.sesscounts = true then
    let (cnt, yak) := sh.yak.add s.trans.rip cf.yakTimeout i.now
    let o := if cnt = cf.yakCount then
        writeLog s.trans (b!"! " ++ s.trans.rip ++ b!" added as a yakker at hit " ++ decInt cnt ++ b!"\n") ++
          [.count .yakads] ++ yakLog cf E i s.trans b!"added"
      else []
    (s', { sh with yak := yak }, o ++ last)
  else if cf.yakCount > 0 ∧ s.gotsomewhere = true then
    (s', { sh with yak := sh.yak.del s.trans.rip }, last)
  else (s', sh, last)

/-- One event of the main loop, sinksmtp.go:1044-1193. -/
def eventStep (cf : Conf) (E : Env) (s : Sess) (sh : Shared) (i : Inp) : SRes :=
  match i.ev with
  | .helo h arg => heloStep cf E h arg s sh i
  | .mailfrom arg => mailStep cf E arg s sh i
  | .rcptto arg => rcptStep cf E arg s sh
  | .data => dataStep cf E s sh
  | .gotdata arg => gotStep cf E arg s sh i
  | .tlserror =>
    let (_, notls) := sh.notls.add s.trans.rip tlsTimeout i.now
    .ok ({ s with sesscounts := false }, { sh with notls := notls }, [.count .tlserrs, .count .starttls])
  | .done => let (s, sh, o) := endStep cf E s sh i; .ok (s, sh, .count .quits :: o)
  | .abort => let (s, sh, o) := endStep cf E s sh i; .ok (s, sh, .count .aborts :: o)
  | .other => .ok (s, sh, [])

/-- One step of `process`. -/
def sstep (cf : Conf) (E : Env) (s : Sess) (sh : Shared) (i : Inp) : SRes :=
  match s.pc with
  | .tls => tlsStep s sh i
  | .connect => connectStep E s sh i
  | .ready => eventStep cf E s sh i
  | .save .open_ tgt rec_ id => openStep tgt rec_ id s sh i.sys
  | .save .write tgt rec_ id => writeStep tgt rec_ id s sh i.sys
  | .save .sync tgt rec_ id => syncStep tgt rec_ id s sh i.sys
  | .save .close tgt _ id => closeStep tgt id s sh i.sys
  | .decide id failed => answerStep cf E id failed s sh
  | .closed => .ok (s, sh, [])

end Sink
