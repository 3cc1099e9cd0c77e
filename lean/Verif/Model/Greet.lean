import Verif.Model.Session
import Verif.Model.Accept

/-!
# What `process` hands to the smtpd library, and which times it records

Two things that `Model/Session.lean` leaves out because nothing in `process` looks at them again: the configuration given to `smtpd.NewConn`, and the
calls of `updateTimeOf` (what these do is in `Model/Accept.lean`).
-/

namespace Sink

/-- The fields of `tls.Config` that are set, sinksmtp.go:988-1010. -/
structure TlsSetup where
  certificates : List TlsCert
  /-- `ClientAuth = RequestClientCert` -/
  askClient : Bool
  ticketsDisabled : Bool
  serverName : Str
  deriving DecidableEq, Repr

/-- `smtpd.Config` and the writer for the log, as far as they are set: sinksmtp.go:928-934, 968-977, 1010. -/
structure SmtpdConf where
  localName : Str
  sayTime : Bool
  sftName : Str
  announce : Str
  /-- `Delay`, in nanoseconds -/
  delay : Int
  tls : Option TlsSetup
  /-- The writer `l2` is not nil. -/
  logged : Bool
  deriving DecidableEq, Repr

/-- The arguments of `smtpd.NewConn(nc, cfg, l2)`, sinksmtp.go:928-934, 968-1019; `slow` is `goslow` (-S) and `s` the state in which the connection is
made, after `tlsStep`. -/
def smtpdConf (slow : Bool) (s : Sess) : SmtpdConf where
  localName := s.sname
  sayTime := true
  sftName := b!"sinksmtp"
  announce := b!"This server does not deliver email."
  delay := if slow || s.stall then 1000000000 / 10 else 0
  tls := s.tlsCfg.map fun x => ⟨x.certs, x.askClient, true, s.sname⟩
  logged := s.trans.hasLog

/-- The call of `updateTimeOf` when a connection is started, sinksmtp.go:917, 924.  All calls in `process` are for the local address. -/
def startTime (s : Sess) : Kind := if s.stall then .yakker else .regular

/-- The calls of `updateTimeOf` in a step of `process`: after the answer to a message (sinksmtp.go:1167), and at the end (sinksmtp.go:1221-1223). -/
def stepTime (cf : Conf) (s : Sess) (i : Inp) : List Kind :=
  match s.pc with
  | .decide _ _ => [.message]
  | .ready => match i.ev with
    | .done | .abort => if s.gotsomewhere = true ∧ cf.minphase ≠ b!"message" then [.reachedMinphase] else []
    | _ => []
  | _ => []

end Sink
