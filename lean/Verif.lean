import Verif.Model.Accept
import Verif.Model.ArgNum
import Verif.Model.Boot
import Verif.Model.Build
import Verif.Model.Bytes
import Verif.Model.Conncfg
import Verif.Model.Eval
import Verif.Model.Expr
import Verif.Model.Flags
import Verif.Model.Greet
import Verif.Model.HostPort
import Verif.Model.IpMap
import Verif.Model.IpText
import Verif.Model.IpText6
import Verif.Model.Lex
import Verif.Model.Lists
import Verif.Model.Logger
import Verif.Model.Main
import Verif.Model.Match
import Verif.Model.Mutex
import Verif.Model.Mx
import Verif.Model.Net
import Verif.Model.Page
import Verif.Model.Parse
import Verif.Model.Pipe
import Verif.Model.Program
import Verif.Model.Record
import Verif.Model.Server
import Verif.Model.Session
import Verif.Model.Setup
import Verif.Model.Slices
import Verif.Model.Tls
import Verif.Model.Warn
import Verif.Model.World
import Verif.Spec.Adding
import Verif.Spec.Alone
import Verif.Spec.Answers
import Verif.Spec.ArgNum
import Verif.Spec.Complaint
import Verif.Spec.ConnError
import Verif.Spec.Conncfg
import Verif.Spec.Demo
import Verif.Spec.DemoAccept
import Verif.Spec.DemoMutex
import Verif.Spec.DemoProgram
import Verif.Spec.DemoServer
import Verif.Spec.DemoSession
import Verif.Spec.DemoWorld
import Verif.Spec.Echo
import Verif.Spec.Flags
import Verif.Spec.Grammar
import Verif.Spec.HostPort
import Verif.Spec.IpMap
import Verif.Spec.IpText
import Verif.Spec.IpText6
import Verif.Spec.Isolation
import Verif.Spec.Lex
import Verif.Spec.Local
import Verif.Spec.LogLine
import Verif.Spec.Lookups
import Verif.Spec.Match
import Verif.Spec.Meta
import Verif.Spec.Mutex
import Verif.Spec.Mx
import Verif.Spec.Order
import Verif.Spec.Place
import Verif.Spec.Print
import Verif.Spec.Record
import Verif.Spec.Sem
import Verif.Spec.Server
import Verif.Spec.Session
import Verif.Spec.Snapshot
import Verif.Spec.Standing
import Verif.Spec.Store
import Verif.Spec.Written
import Verif.Lemmas.Answers
import Verif.Lemmas.Attr
import Verif.Lemmas.BaseRules
import Verif.Lemmas.Bytes
import Verif.Lemmas.Complaint
import Verif.Lemmas.ConnError
import Verif.Lemmas.Conncfg
import Verif.Lemmas.Crash
import Verif.Lemmas.Decide
import Verif.Lemmas.Decimal
import Verif.Lemmas.Echo
import Verif.Lemmas.Eval
import Verif.Lemmas.GramPos
import Verif.Lemmas.IpMap
import Verif.Lemmas.IpText
import Verif.Lemmas.IpText6
import Verif.Lemmas.Lex
import Verif.Lemmas.Lists
import Verif.Lemmas.Lookups
import Verif.Lemmas.Match
import Verif.Lemmas.Mutex
import Verif.Lemmas.Mx
import Verif.Lemmas.Parse
import Verif.Lemmas.ParseComplete
import Verif.Lemmas.ParsePlace
import Verif.Lemmas.ParseRule
import Verif.Lemmas.ParseSafe
import Verif.Lemmas.Print
import Verif.Lemmas.PrintOpts
import Verif.Lemmas.Record
import Verif.Lemmas.Server
import Verif.Lemmas.Session
import Verif.Lemmas.SessionCtx
import Verif.Lemmas.SessionInv
import Verif.Lemmas.Snapshot
import Verif.Lemmas.Steps
import Verif.Lemmas.Store
import Verif.Lemmas.Tac
import Verif.Lemmas.Trace
import Verif.Lemmas.Upd
import Verif.Lemmas.Views
import Verif.Props.Accept
import Verif.Props.Adding
import Verif.Props.Alone
import Verif.Props.Answers
import Verif.Props.Apart
import Verif.Props.ArgNum
import Verif.Props.AskedOnce
import Verif.Props.Attr
import Verif.Props.Books
import Verif.Props.Boot
import Verif.Props.Build
import Verif.Props.Cache
import Verif.Props.Changing
import Verif.Props.CipherNames
import Verif.Props.Comma
import Verif.Props.Complaint
import Verif.Props.Conncfg
import Verif.Props.Crash
import Verif.Props.Decide
import Verif.Props.DomainLists
import Verif.Props.Eval
import Verif.Props.Flags
import Verif.Props.Fleeting
import Verif.Props.Greet
import Verif.Props.HeloIp
import Verif.Props.HostPort
import Verif.Props.Inlined
import Verif.Props.IpRule
import Verif.Props.IpRule6
import Verif.Props.IpText
import Verif.Props.IpText6
import Verif.Props.Isolation
import Verif.Props.Joined
import Verif.Props.Kept
import Verif.Props.Launched
import Verif.Props.Lex
import Verif.Props.LineEnds
import Verif.Props.Local
import Verif.Props.LogLine
import Verif.Props.Logger
import Verif.Props.Logs
import Verif.Props.Lookups
import Verif.Props.Main
import Verif.Props.Manual
import Verif.Props.Match
import Verif.Props.MessageLog
import Verif.Props.Meta
import Verif.Props.Mutex
import Verif.Props.Mx
import Verif.Props.NoCrash
import Verif.Props.NoTls
import Verif.Props.NoYak
import Verif.Props.NullSender
import Verif.Props.Observed
import Verif.Props.OneFile
import Verif.Props.Onlyreject
import Verif.Props.Order
import Verif.Props.Origin
import Verif.Props.OwnFile
import Verif.Props.Page
import Verif.Props.Pairs
import Verif.Props.Parse
import Verif.Props.ParsePlace
import Verif.Props.Parts
import Verif.Props.Pipe
import Verif.Props.Print
import Verif.Props.Priority
import Verif.Props.Program
import Verif.Props.Record
import Verif.Props.Replies
import Verif.Props.RepoTests
import Verif.Props.Reports
import Verif.Props.Rewrite
import Verif.Props.SavedOnce
import Verif.Props.Sections
import Verif.Props.Server
import Verif.Props.Session
import Verif.Props.SessionRules
import Verif.Props.Slices
import Verif.Props.Stalled
import Verif.Props.StandsStill
import Verif.Props.Stats
import Verif.Props.StdRules
import Verif.Props.Steady
import Verif.Props.Store
import Verif.Props.Stored
import Verif.Props.Times
import Verif.Props.TlsOpt
import Verif.Props.Traits
import Verif.Props.Transaction
import Verif.Props.Warn
import Verif.Props.Written
import Verif.Props.Yakker
import Verif.Props.Zones
