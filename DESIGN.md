# Formal model of siebenmann/sinksmtp in Lean 4 — design

## Layout

* `properties.jsonl` — the properties (C01 ...), generated by `tools/gen_properties.py`.
* `lean/Verif/Model/*.lean` — the model. Every definition cites the Go file and lines it models.
* `lean/Verif/Spec/*.lean` — small specifications, written from the manual (`doc.go`), independent of the model's helpers.
* `lean/Verif/Lemmas/*.lean` — helper lemmas and invariants.
* `lean/Verif/Props/*.lean` — the property theorems (names start with the property id) with non-vacuity examples.
* `seeded/LOG.jsonl` — mutation log.  `MANIFEST.json` — status per property.

## Modelling conventions

* A Go `string` is `List UInt8` (`Str`). Go maps with a fixed key set become records; other maps become functions/association lists.
* A run-time panic (index out of range, nil dereference, explicit `panic`) is a value: functions that can panic return
  `Except Panic _`. Nothing is totalised away: an out-of-range index is a `Panic`.
* Loops become structural recursion, or recursion on fuel; where fuel is used a theorem shows the fuel always suffices,
  so the fuel is not a restriction.
* The outside world (DNS, files, IP text parsing, SHA-1, Unicode lower-casing of non-ASCII text, Go map iteration order) is a
  `World` record of oracles. DNS and files are indexed by a clock that ticks on each external call, so a `World` is an arbitrary,
  time-varying adversary. No axioms: all assumptions on the world are explicit hypotheses of the theorems that need them.
* The SMTP library (`github.com/siebenmann/smtpd`) is not in the repository. The session model takes an arbitrary
  sequence of events (no assumption on SMTP ordering) and emits the replies the code asks the library to send.

## Plan per property

| id | modelled | proof |
|----|----------|-------|
| C01 | lexer state functions as a step machine over (rest, pos) | measure argument: fuel suffices; no panic; last token terminal |
| C02 | lexQuote | induction on the value |
| C03 | item positions, lineInfo | invariant over the step machine |
| C04 | lexLineStart/Running, lexComment | position-insensitivity lemma + simulation |
| C05 | whole parser on token streams, fuel | size measure, no-panic invariant |
| C06 | pAndl/pOrl/pTerm | inductive grammar in Spec; soundness and completeness by induction |
| C07 | currule.requires, minReq, pRule | invariant req' = max req (needs e); needs is a Spec function |
| C08 | pWClause, pRClause | invariant of the loops |
| C09 | Rule.String, Option.String, revMap | lexing lemmas for printed words + completeness of C06 |
| C10 | pInclude, loadRules with a file system and a descriptor bound | unfolding + fuel monotonicity |
| C11 | buildRules text generation, Parse | lexing lemmas for arbitrary plain file names |
| C12 C13 | matchAddress, matchHost, sDotIter | loop invariant: iterator enumerates dot-suffixes |
| C14 | matchIp over IP = v4/v6 bit vectors; text parsing an oracle | case analysis |
| C15 | toLower etc. | lower is idempotent / case-insensitive on ASCII |
| C16 | readList | induction; the missing last line is a finding |
| C17 C18 C22 C23 | Eval, check, Decide | refinement to a pure 3-valued semantics in a static world |
| C19 C20 | caches in Context with a time-varying World | cache monotonicity invariants |
| C21 | Eval | simulation between two contexts |
| C24..C27 | Decide | unfolding, induction over decision histories |
| C28..C30 | getAddrOpts, heloGetter, dnsGetter | case analysis on bit masks |
| C31 C32 | source, dbl | from the pure semantics; permutation invariance |
| C33..C41 C60 | decider, process as a step function over events | invariants over event lists |
| C42..C46 | handleMessage, msgDetails, logMessage over a file system with failures and crash points | invariants; parsing lemmas |
| C47 | panics of the whole session model | no-panic invariant under explicit conditions; each excluded case is a proved crash witness |
| C48 C49 | conncfg.go | induction over lines |
| C50 | rdns.go | permutation argument |
| C51 C52 | mxresolve.go | induction; permutation; bit-vector prefix facts |
| C53 | Go slices with backing arrays, append, base rules capacity | interference witness + isolation theorem when there is no spare capacity |
| C54 | ipMap + mutex step machine | serializability by invariant; count spec |
| C55 | producer/consumer step machine | invariant + termination measure |
| C56..C58 | warnbackend, dnsblCounts, bufio writer | induction / case analysis |
| C59 | main option checks | case analysis |
| C61 | tlsProtoVersion | hex digits injective |
| C62 | lexer step machine | invariant on comma tokens |
| C63 C64 | process, decider, doAccept | case analysis of `Did` per step, summed over lives by induction |
| C65 | events counters in Shared, all connections | counting lemma per step; sum over interleavings |
| C66 | decider logging, logDnsbls, getSBLHits | squeeze specification (no repeated line of a kind) as an invariant |
| C69 C70 | listener, accept loop, updateTimeOf as a small-step system with all interleavings | invariants (numbering, per-listener queues, string ownership); termination measure for C69_served |
| C71 | Server.Runs, simulation between a run and the run without the other addresses | relation on shared tables restricted to one address, induction over runs |
| C72 | setupRules, accumRules, Decide | rule lists A ++ B; `ruleLoop` over an append |
| C73 | msgDetails, gotTrans | a reader of the format written from doc.go; line by line parsing lemmas; invariant for what the transaction knows of the client |
| C74 | tlsStep, decider | induction over the life of a connection, split at the TLS setup |
| C75 | eval, Decide, sstep | `Adds P t t'` (the trace grows by events with P) through every function that extends the trace; `Asks`, `RuleAsks` read off the expressions |
| C76 | Decide, decider, sstep | the context is described by the history (`Tells`: what was said, pending refusal, caches true of the world), an invariant of the connection; `decide_ctx` |
| C77 | eval, Decide, sstep | truth of expressions that need nothing depends only on address and DNS names; first match and last option unchanged by dropping a rule that never matches or cutting after one that always does; then C76 |
| C78 | logMessage, sstep | a reader `Spec.readLog` for the format, field by field; `C33_rules_see` for what the fields must be; `C78_ambiguous` is a pair of runs with the same line |
| C79 | parser | two runs on texts with the same first `k` tokens (`Rel`, `Agree`), through every parsing function; the place is the last one the message can mean |
| C80 | setupRules, readConnFile, loadCerts, process | exact characterisation of the errors by relations on the words of a line |
| C81 | process | the histories of C38 with a limit of 0: only records of 0 can arise |
| C82 | ipMap with its mutex, process | invariant of the atomic tables (C54), counting of calls and returns; lifted to `Server.Runs` |
| C83 | setupExpvars, process | C65 and C40 summed over the history, by name; inversion of the lookup of a path |
| C84 | readList, readConnFile | UTF-8 white space is a prefix and suffix code, so what is left after trimming is determined |
| C85 | Decide, Check, the meaning of expressions | interchangeable = going through them (`Goes`) gives the same in every situation, which determines `Ruling` and is a congruence; each law is a small case analysis; three counterexamples bound the laws |
| C86 | Decide, getMatchList, getDnsblRes, validDomain, LookupAddrVerified, process | each question is asked at most once since the start of the connection (`Backed`), so the answers given define one unchanging world (`World.found`); a context has a twin in that world (`Twin`) that makes the same decisions, and C76's invariant `Tells` holds of the twin; the converse (`C86_addresses_needed`) by a witness session in which one mail exchanger loses its address |
| C87 | Decide | induction over the places of the added rules (`Added`, `goes_added`, `goes_added_set`), lifted to waiting refusals and rulings |
| C88 | `Decide`, `process` | two histories that agree in what is known in a phase (`SameUpTo`); rules look at nothing else |
| C89 | Model/IpText, Model/Match | parser of dotted quads is exact; bit masks are division by powers of two |
| C90 | Model/HostPort + process | SplitHostPort is exact; the text of a TCP address goes through it; then C89 and the answers of C76 give the sessions of one rule |
| C91 | process (TLS set-up) | induction over histories of the server: without certificates no offers, so no failures; with C41 and C65 |
| C92 | process, with the order of commands that smtpd enforces | invariant of a run: the place in the dialog determines the commands accepted before; with C36, C37, C38, C67, C68, C76 |
| C93 | Server.Runs, handleMessage | invariant of all runs: what a connection is saving came in as a message on it, contents are prefixes of records; with C43, C45, C92 |
| C94 | arguments of smtpd.NewConn (Model/Greet) | from the state after the TLS set-up; what is settled at the beginning stays (`Server.Runs.settled`); with C38, C41, C48 |
| C95 | calls of updateTimeOf in process (Model/Greet) | balance of messages received, answered and in work, by induction over the life of a connection; with C38, C60 |
| C96 | definitions of the options, flag.Parse (Model/Flags) | a grammar of command lines (Spec/Flags) against the parser, both directions; each setting by induction over the options given; with C35, C59, C94 |
| C97 | lexer, parser, loading, evaluation, session | the text through `parseWith_lines` (C11), the rulings through C86; no null sender waits because every line needs a recipient; invariant: no accepted recipient is blocked for the last sender |
| C98 | rules, evaluation, session | a rule that matches in a phase matched in the earlier phase by which everything it needs was known (for DATA: for one of the recipients), where the command would have been refused (C76) |
| C99 | logger, accept loop, session | decimal numerals are injective and end where no digit follows; the file by C58, its lines by uniqueness of the division into lines, the server's records by C66, the numbers by C69 |
| C100 | command line, start, accept loop, updateTimeOf and sessions together (Model/Program) | a run projects to runs of the parts; invariant: each `process` makes the calls its steps require, in order; with C69, C70, C95, C96 |
| C101 | lexer, parser, loading, Decide, session | the text of each example is one line of the grammar; lemmas for a rule in front of others that does not match, matches, or only sets options; C76 |
| C102 | command line, start, the whole program | from C05 (start), C47, C59, C96 for the settings that a command line gives; a measure on the place in `process`; a concrete careless command line whose program can be ended by its first client |
| C103 | rule text, sessions, table of do-nothing clients | the text as in C101; the standard rules say nothing to EHLO with a name; C39 for the end of the session, the history of the record (C38) for the next connection |
| C104 | `main` up to the loop, with the files as a state (`Model/Boot.lean`) | the parts of `main` as state transformers; an invariant for each part, composed; the result is that of `start` (C59) |
| C105 | Model/IpText6, Model/IpText, Model/HostPort, rules, sessions | the loop of the IPv6 parser against a grammar of texts, by induction on the room left; blocks as division by powers of two, with IPv4 addresses embedded; the text of an address is in the grammar; sessions as in C90 |
| C106 | heloGetter, dnsGetter, Model/Mx, Model/IpText6 | C29 with the parsers of C105: brackets are in no text of an address, texts of different addresses differ, a dotted text without leading zeros is the one Go writes; the text of an IPv6 address against RFC 5952 (Spec/Written), with uniqueness |
| C107 | rparse.go: every error of the parser | a small specification of what each message claims in terms of the grammar (`Spec/Complaint.lean`); for each parser function, its errors are true complaints after any words before it; induction over the parser functions, with the soundness lemmas of C06 for the words already read |
| C108 | conncfg.go find, with addresses as text (Model/IpText6, HostPort) | the line used is the first that `PerDest.matches` takes; for TCP addresses this is a predicate on the text of LOCAL by C105 and C90; texts with a port have one colon or begin with a bracket and are no addresses |
| C109 | buildRules, setupRules without -r, Decide, decider | from C76 (what the rules say is what is answered): all generated rules reject, so a command is refused iff one of the at most seven rules matches; what each matches is a predicate on file texts (C16), addresses (C12, C18) and the options; in a transaction the earlier acceptances take away all reasons but one |
| C110 | flag.IntVar, flag.DurationVar (Model/ArgNum) | grammars of numbers (value by `Nat.ofDigits`) and durations (sums of pieces) against the loops of the library, both directions; overflow checks by monotony; with C59, C96 |
| C111 | rnodes.go DNSblN, rules.go getDnsblRes, parser, session | text of the file by `LineOf`/`parseWith_lines`; answers by C86 and `Goes`; the log by running the loop over the zones with a cache that tells the truth |
| C112 | rnodes.go DblNode, rparse.go pDblArgs, parser, session | text as in C111; what the lines say by C76 and `Goes`; a refusal kept back from MAIL FROM:<> is the one that the rules give to the recipients anyway |
| C113 | rlex.go, rparse.go, sinksmtp.go loadRules, accumRules, setupRules | a lexer that finds no fault in a text of complete lines is at the start of a line behind it (induction over its steps, with the locality lemma of C04); the statements of the first text are `Lines` of the grammar (no statement ends in an end of line); then C06 and C10; connections by comparing `startSess` |
| C114 | rules.go heloGetter, getAddrOpts, Decide, rparse.go, session | text as in C112; the bits of a line are the union over its words, and a bit of an attribute meets another only if they are the same (table over all attributes); what an attribute means is C85's; then as C112 |
| C115 | all of the session | one lemma per function that asks: in a world that gives the same answers to the questions of the resulting trace it does the same (`Spec.Echo`); up to `sstep` and `startSess`; the unchanging world is the one of C86, where each question is asked at most once |
| C116 | tlsnames.go | the whole table is checked in the kernel against a description of good names; lifted to all numbers by lemmas on `List.lookup` |
| C117 | rparse.go pInclude, sinksmtp.go loadRules, accumRules | the include line by itself is a `Lined` text that gives the rules of the file; the text of the file gives the same with one more descriptor (C10); then C113 three times; connections by `life_same` of C113 |
| C118 | rules.go getDnsblRes, validDomain, getMatchList; rdns.go | counting invariant `Backed` over all states of a life (used for C86 too), from the trace at the start; the counterexample by a state that a greeting leads back to, but for its trace |
| C119 | sinksmtp.go logMessage/saveMsg, O_EXCL | induction over runs of the server: what was made stays, so events that make files make different ones; then by C44 files of different names come from different messages, and pigeonhole |
| C120 | the whole program: numbers of connections (C69, C100), records, files | records begin with a word that tells the connection; with C42_all_partial and the invariant that who does not write a file that is there never will |
| C121 | sinksmtp.go logMessage; all connections of a server | induction over runs of the server with C78 for each step; equality of lists (lines read back, messages received) |
| C122 | rparse.go, rules.go Decide; the manual's last examples, with any rules after them | line grammar, then `Ruling` with the first rules skipped or hit (as in C101, but for rules that act on MAIL FROM) |
| C123 | buildRules, accumRules, Rule.String; whole connections | C09 for all rules of a connection, then equality of the lives of two servers that load the same rules |
| C124 | rules.go Decide by phases; whole connections | induction over the rules, only the section of the phase takes part; C123 for the printed file |
| C67 C68 | buildRules + Decide + process | the generated rules come first and only reject: first-rule lemma over lives |

## Trusted base

1. **The Lean 4 kernel** (4.33.0). Nothing is proved with `native_decide` or `bv_decide`; there is no `sorry`, no `axiom`, no
   `implemented_by`, no `unsafe` code in `lean/Verif`. `decide` and `decide +kernel` are used only for closed terms (the complete
   keyword and option tables) and for the concrete examples beside the theorems.
2. **Axioms.** Every property theorem depends on at most `propext`, `Classical.choice` and `Quot.sound`, the three axioms of Lean's
   standard logic. `AXIOMS.md` (written by `tools/axioms.py` from `#print axioms`) has the list for each theorem.
3. **The model.** That the definitions in `Verif/Model` say what the Go code does was checked by reading both, three times; it is not
   proved. The code was never run. The repository's own Go tests, transcribed, hold of the model
   (`Props/RepoTests.lean`, tests and not proofs), except `mxresolve_test.go`, which asks the real DNS, and `TestNoLexerGoroutine` (see C55), which were left out.
   They had been read before the model was written, so they are no independent check of it. What is said of
   libraries outside the repository (package net, `bufio.Writer`, `expvar`, package strings, the smtpd library) is written from memory: there was neither their source
   nor a Go installation to compare with. What is and is not modelled is listed below.
4. **The statements.** The definitions in `Verif/Spec` and the theorem statements in `Verif/Props` say what the properties mean.
   Mutation testing (`seeded/LOG.jsonl`) is the check that they are not vacuous.

## What is modelled

| Go code | model | remarks |
|---|---|---|
| rlex.go (all) | Model/Lex | state functions as a step machine; `Model/Pipe` adds the goroutine and its channel |
| rparse.go (all) | Model/Parse, Model/Expr | error texts included; line numbers from `lineInfo` |
| rules.go, rnodes.go (all) | Model/Eval, Model/Match, Model/Expr (printing) | Go maps with unordered iteration: the order is an oracle |
| mxresolve.go, rdns.go | Model/Mx | DNS is an oracle indexed by time |
| package net: `ParseIP`, `ParseCIDR` for IPv4 | Model/IpText | not in the repo, from memory; for C89 only |
| package net: `ParseIP`, `ParseCIDR`, `IP.String` for IPv6 | Model/IpText6 | not in the repo, from memory; for C105, C106 and C108 only; zones are not addresses |
| package net: `SplitHostPort`, `JoinHostPort`, `TCPAddr.String`, text of IPv4 addresses | Model/HostPort | not in the repo, from memory; for C90, C105, C106 and C108 only; elsewhere `rip`, `lip` are any texts |
| conncfg.go | Model/Conncfg | `tls.LoadX509KeyPair` is an oracle |
| tlsnames.go | Model/Tls | |
| sinksmtp.go 58-82 warnings | Model/Warn | small-step, any number of goroutines |
| sinksmtp.go 84-131 lists | Model/Lists | |
| sinksmtp.go 135-189 rules | Model/Setup (values), Model/Slices (backing arrays) | |
| sinksmtp.go 206-356 ipMap, dnsblCounts | Model/IpMap (whole methods), Model/Mutex (single accesses under a mutex) | C54 connects the two |
| sinksmtp.go 364-388 smtpLogger | Model/Logger | with `bufio.Writer` |
| sinksmtp.go 395-622 transactions, records, log lines | Model/Record, Model/Tls | SHA-1 and net/mail are oracles |
| sinksmtp.go 626-1235 handleMessage, decider, process | Model/Session, Model/Server | one atomic step per access to shared state; any interleaving |
| sinksmtp.go 1251-1362 loadCerts, buildRules, genStallRules | Model/Conncfg, Model/Build | |
| sinksmtp.go 1527-1704 main | Model/Main, Model/Boot | everything between `flag.Parse` and the accept loop; Boot has the files as a state |
| sinksmtp.go 1535-1562, 1679-1680 options | Model/Flags | `flag.Parse` from memory of package flag; how numbers and durations are written is a parameter |
| sinksmtp.go 1550-1551 numbers and durations | Model/ArgNum | `strconv.ParseInt(s, 0, 64)` and `time.ParseDuration` (Go 1.17 and later) from memory; the floating point value of digits after a point is a parameter |
| sinksmtp.go 1238-1246 listener, 1433-1474 updateTimeOf, 1694-1717 accept loop | Model/Accept | small-step; expvar operations atomic |
| sinksmtp.go 928-934, 968-1019 configuration of smtpd, 917-924, 1167, 1221-1223 which times are recorded | Model/Greet | functions of the steps of Model/Session; nothing in `process` depends on them |
| sinksmtp.go 871-890, 1527-1717 the parts together | Model/Program | for C100; the calls of `updateTimeOf` in a step come after the step |
| sinksmtp.go 1366-1438 setupExpvars | Model/Page | names and where the values are kept |

## What is not modelled

* The smtpd library, the network, TLS handshakes, X.509 verification (its outcome is an input). The session model accepts events in
  any order, so the theorems do not depend on the library enforcing SMTP order. The exceptions are C92 and C93, with the hypothesis
  `Orderly` (Spec/Order.lean): smtpd lets through EHLO, HELO and MAIL FROM only outside a transaction, RCPT TO after an accepted MAIL FROM, DATA after an
  accepted RCPT TO, a message after an accepted DATA; the library is not in the repository, so this is an assumption about it, written from memory of the library and not checked against its source. An
  example beside C92 shows that the hypothesis is needed: `process` itself never checks that the transaction was accepted.
* The HTTP server (-pprof; that the program ends if it cannot be started) and the JSON form of the statistics page, `usage`; what the SMTP library does with its configuration (Model/Greet has only what it is given).
* The closing of connections, the memory a connection uses, the operating system's limits except free file descriptors during nested includes.
* Text form of IP addresses: `net.ParseIP`, `net.ParseCIDR`, `IP.String` are oracles to bit vectors; IPv4-mapped IPv6 addresses are the IPv4
  ones, as in Go. For IPv4 `Model/IpText` has the two parsers as package net is remembered to implement them, and C89 says what follows; `Model/IpText6` has them and `IP.String` for IPv6 too (C105). Elsewhere they stay oracles, so that those theorems hold for any version of Go. A client with an IPv6 zone (link-local) is known as `ip%zone` (C90_tcp), which `net.ParseIP` refuses: the cases
  of an unparsable address in C14 and C48 are met by such clients.
* `strings.ToLower` outside ASCII: an oracle; C15 uses only its ASCII behaviour.
* Go's memory model: mutex-protected code is shown to have no conflicting accesses outside the lock (C54, C57); the rest of the server is modelled as
  atomic steps that touch shared state once.

## Simplifications, and why they are harmless

* `Model/IpMap` reads the clock once per operation; `Model/Mutex` reads it at every instruction, and C54 relates the two.
* A read error in the middle of a file is an outcome of the file oracle (`FileRead.readErr`) without the bytes before it: every caller treats
  it as an error of the whole file.
* `logDnsbls` sorts the list of hits in place; the deferred copy (rules.go:526) may share it. It is only used through the same sorting.
* The file system is a function from names to contents; opening with O_EXCL, writing, syncing and closing are separate steps that can fail or be followed by a
  crash (C43 holds in every intermediate state).
* `expvar.Map.Set` is one atomic step, as the documentation of the package says; in the Go library, as remembered, it is a `LoadOrStore` followed by a `Store`.
* Numbers: counters that are Go `int` are unbounded integers; `dnsblCounts` are `UInt64` as in Go.

## Findings: where the code and a property disagree

Each of these has a machine-checked witness (a theorem that the general statement is false), beside the `_partial` theorem that says under which
condition it holds.

| property | finding |
|---|---|
| C16, C49 | `readList` and `readConnFile` drop a last line without a newline. |
| C14, C48 | An address that cannot be parsed equals every other unparsable text: `net.IP(nil).Equal(nil)` is true. |
| C28 | The manual's list for `bad` (doc.go:597) is not the one in the code. |
| C39 | make-yakker is honoured only if the very last decision of the session set it. |
| C40 | If the count reaches the limit exactly on the RSET path nobody logs it. |
| C42 | An error of `Write` is overwritten by the success of `Close`; an error of `Sync` is ignored; an existing file counts as stored, even one that another connection has made but not yet written to (`C42_early`). With `-save-hash msg` only the first sender of a message is recorded (`C42_shared`); the comment at sinksmtp.go:635-636 says so, the log has the others. |
| C45 | Names in client certificates may contain newlines and forge lines of a record. |
| C47 | Crashes: an empty pattern (`from ""`); an empty EHLO name with a `helo` rule and -nostdrules; empty reverse DNS names in `dbl host` and as the server's own name; a rule note without -smtplog; `sbl.spamhaus.org.` as a `dbl` with an IPv6 client. |
| C53 | `append` to the base rules writes into spare capacity that all connections share: with the three standard rules a connection may end up with the rule another one loaded. |
| C70 | Two goroutines that both record the first event of a kind can leave the older time in the statistics; `expvar.Map.Get` followed by `Set` is not atomic. |
| C89 | The comment in `matchIp` says that addresses with leading zeros are understood. From Go 1.17 on they are not: such a rule is an error, and such a line in a file matches no IPv4 client. |
| C91 | The comment at sinksmtp.go:1014 says that `notls_conns` is counted only if TLS is available. With -conncfg a client that failed twice on one address is counted on another that has no certificates. |
| C92 | After an accepted EHLO and a second one that only an `@helo` rule refuses, mail is taken and recorded with the first name, while rules on the EHLO name look at the second (`C92_other_name`). A rule without a phase refuses MAIL FROM as well. |
| C101 | The manual says (doc.go:411-419) that with `@helo accept helo liar.com`, `reject host .enemy.org` an enemy's HELO is accepted and its MAIL FROM refused. `host` needs no phase (rparse.go:231-243), so the second rule matches at connect and the enemy is dropped without a banner (`C101_liar`). For the same reason the message of `reject dnsbl D with message M`, as in the manual (doc.go:698), is never sent (`C101_dnsbl`). |
| C103 | make-yakker does not work "regardless of what additional progress is made in the session" (doc.go:687-688): the client of the manual's example need only send another EHLO with another name (`C103_escape`; see C39). |
| C104 | Starting the server empties and removes a file `.wecanmake` in the save directory, also if the start then fails; a log file of this name is removed while in use (`C104_testfile_lost`). |
| C105 | "rip comes from the connection so it should always be valid" (rules.go:371) is not so for link-local clients: their address has a zone, `net.ParseIP` gives nil, `nil.Equal(nil)` is true, and so such a client matches every block in every `ip` rule (`C105_zone`, `C105_link_local`). `ip ::/0` does not match IPv4 clients. |
| C106 | `remoteip`: "The HELO name is the IP address of client, either bare or in proper form" (doc.go:649-650): the code compares texts, so a client that writes its IPv6 address in another way than Go (`[2001:DB8::1]`, `[2001:db8:0:0:0:0:0:1]`) is `otherip` (`C106_other_spelling`). The literals of RFC 5321, `[IPv6:2001:db8::1]`, are not `properip`, nor any other kind of address (`C106_rfc`). Host names of link-local clients cannot be verified, since the text with the zone is not parsed (rdns.go:30, `C106_zone_names`). |
| C107 | Two examples of the manual are refused by the parser: `reject from info@fbi.gov to joe@example.com or jim@example.org` (doc.go:314), because after `or` a match operation has to follow and not an argument (`C107_or`), and the last line of the set-with example in compact form, because of the full stop after the message (doc.go:371; an `example` beside the theorem). |
| C108 | `IP:PORT` in a connection parameter file is compared as text: `127.0.0.1:025` or `[0::1]:25` are taken without an error and no connection is ever one of them (`C108_spelling`, `C108_other_spelling`); and `*:25` or a host name as LOCAL is taken without an error too (the TODO at conncfg.go:82). On a link-local address the first line that is not a plain address counts, whatever it says (`C108_zone`). |
| C86 | Verdicts on domains are remembered per connection, addresses of host names (mxresolve.go:116-166) are not. If the address of a mail exchanger goes away while a connection is open, `from-has baddom` can accept a sender and then reject another whose domain has the same exchanger; no single state of the DNS explains both answers (`C86_addresses_needed`). Harmless, but the caching gives consistency for each domain only. |
| C109 | What is exact here is also what is lost: a -toaccept file in which only the last line has an address, without a newline at its end, counts as if the option were not given, and every recipient is accepted (C16; an example in Props/Alone shows a lost line). A refused null sender is told so only at RCPT TO. |
| C110 | `-dncount 010` means eight, and `-dncount 08` ends the program, because package flag reads whole numbers like Go programs do; neither the manual nor the usage text says so. `-dndur 3600` ends the program for want of a unit (the manual says "DUR" only). |
| C111 | A `reject dnsbl` rule stops at the first zone that lists the client, so the zones after it get no hit in the log and the counters. IPv6 clients are in no zone at all: the manual's "true if the remote IP is in the given DNS blocklist" holds for IPv4 only. |
| C112 | A `dbl` line is looked at only when all its sources are known, so `dbl any` (and `dbl host,from`) only from MAIL FROM on, also for host and EHLO names: a client with a listed name is let in and may greet; `dbl host` drops it. After MAIL FROM:<> it is the recipients who are refused. A sender whose domain answers the MX lookup with an empty list is not looked up at all (the code takes this to be impossible). |
| C113 | A last line that ends in backslash-newline, or in nothing, is taken together with the first line of the next text; alone it is in order. A first text with an open quote is out of order alone, but the text joined with the next may be in order. Two `-r` files never run into each other. |
| C114 | The manual's words are taken as the code has them: `bad` is noat, unqualified, garbage or route (C28), `remip` is the manual's `remoteip` (C106). A greeting with the client's own address as well as the server's counts as `remip` only, never as `myip`. A dns line drops the client when it connects; nothing is sent. |
| C115 | What must stay is really asked for more than once: the addresses of an MX host (C86 shows a connection that no single state explains), SBL records at every logged hit, the connection parameters file or the local address if the rules or the client happen to name the same. Not covered: rules files, which are read at the start and given by another oracle (`Env.fs`), of which nothing is supposed anyway. |
| C116 | The protocol in a name is the one openssl gives for the cipher, not the one of the connection (which the record gives apart, C61). Three PSK ciphers with SHA256 are said to be of TLSv1, as openssl has it; only GCM, CCM, SHA384 and CHACHA20 are held against the protocol. |
| C117 | An include takes a descriptor of its own, so rules that fail to load with `include` may load with the text in its place. A plain file name ended by a backslash is left out (the lexer takes the backslash as part of the name; quoted names cover it). |
| C118 | A DNS blocklist name that is not listed is looked up again for every command of the connection (`getDnsblRes` keeps answers only if the lookup did not fail, and "no such host" is a failure); C118_again. A temporary failure for a mail domain on the other hand is kept for the whole connection. |
| C119 | With `-save-hash full` one file for each different message, as the manual says (doc.go:205-208); what is counted as different includes the name and version of the cipher and the certificate, so a sender that comes once with TLS and once without is saved twice (it is two messages to `SameMessage`). |
| C120 | The manual (doc.go:210-215) says that names are unique but for hash collisions and two copies over the same connection in the same second: proved, and both copies are then accepted with one file (C120_same_second). Not in the manual: a file that was there before the program started, and a failed write, after which the message is accepted all the same (C42). |
| C121 | True as the manual says it (doc.go:200-203), if accepted addresses have no `>` (C78_ambiguous). |
| C122 | True as the manual says it (doc.go:725-746). |
| C123 | True for rules that can be printed (see C09 for those that cannot). |
| C124 | True; the manual describes phases so but does not say it. |
| C78 | A recipient `b@example.com> <c@example.com` and the two recipients it looks like give the same line in the message log. |
| C09 | Rules printed with quotes, backslashes or special words do not parse back. |
| C12, C15, C29 | Corner cases stated in the theorems: `@` at the ends of an address, `FILE:` in capitals is a literal pattern, `remip` when the client address is empty. |

Further observations, not about one of the properties (`Props/Observed.lean` has the witnesses named `observed_…`): MAIL FROM:<> can be answered with a temporary
failure through the RSET path, and in no other way (`C25_reply`); an abandoned transaction is not counted when it is ended by EHLO (`observed_ehlo`);
a session dropped at connect is not counted at all (`observed_drop`);
a message is saved, and counted by the page among those received, before the rules have decided about it (`observed_late`);
`smtpLogger.Write` returns more bytes than it was given (`observed_logger`); rules files with CR LF line ends are refused or read as rules that match
nothing (`C84_rules_differ`); a negative -dncount is accepted, and clients marked by make-yakker are then reported but not stalled, and
make-yakker without -dncount still makes (empty) records (examples in `Props/NoYak.lean`);
file names with blanks given to -fromreject and the like inject operators into the
generated rules (`observed_blank`; `C11_base_rules`, C36 and C67 assume clean names; `-M`, the standard rules and C11_any_names do not);
include cycles recurse until no descriptor is left (`C10_cycle_fails`);
two of the manual's own rules are refused: `to A or B` needs a second `to` (doc.go:314, 318; `observed_or`), and the compact form ends in a stray dot (`observed_dot`).
From reading only, outside the model: the manual says `remoteip` (doc.go:649) where the code has `remip` (rlex.go:212), octal cipher numbers (doc.go:154) where the code writes hexadecimal ones (sinksmtp.go:567), and nothing about -dnlog.

## How the theorems were tested

`tools/mutlog.py` appends to `seeded/LOG.jsonl`. Each line is one edit of the model that imitates a realistic bug, with the theorems that no longer
prove; where a wrong model still satisfied all theorems, the line says which theorem was tightened.

A build stops at the first file that fails, so many lines name only a lemma (`Lemmas/…`, or a helper in `Props/…`). This shows that the proof of the
claim no longer goes through as written, since the property theorem is built on the lemma. It does not by itself show that the statement of the
property theorem became unprovable. Where a `C…` theorem is named, its own proof failed.
