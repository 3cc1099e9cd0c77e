{"id": "C01", "title": "Lexing a rules file always terminates and never crashes", "statement": "For every byte string given as a rules file the lexer stops after finitely many steps, never indexes outside the input, and delivers a token stream in which exactly the last token is an end-of-file or an error token.", "quantifier": "every byte string (any length, any bytes, including unterminated quotes, trailing backslashes, NULs)", "why_tests_cant": "termination and absence of out-of-range indexing on all inputs cannot be sampled; the existing tests use about 30 strings", "anchors": ["rlex.go: lex, (*lexer).run, lexLineStart, lexLineRunning, lexSpecial, lexWord, lexQuote, lexComment"]}
{"id": "C02", "title": "Quoted strings round-trip", "statement": "For every byte string v, writing v between double quotes with each \" and \\ preceded by a backslash yields exactly one plain-value token whose value is v, whatever follows the closing quote.", "quantifier": "every byte string v (including newlines, backslashes, quotes, commas, keywords) and every following text", "why_tests_cant": "tests check six quoted strings; the escape rule interacts with every byte pattern", "anchors": ["rlex.go: lexQuote, emitString", "doc.go: CONTROL RULES, quoted strings"]}
{"id": "C03", "title": "Tokens come from the text at their reported position", "statement": "Every token other than an error reports a position inside the input; an unquoted token's text is exactly the input bytes at that position; positions never decrease, and the line number reported for a position is one plus the number of newlines before it.", "quantifier": "every input and every token of its stream", "why_tests_cant": "error messages of arbitrary user files rely on positions; tests ignore positions completely (equal() skips pos)", "anchors": ["rlex.go: emit, emitString, errorf, lineInfo", "rparse.go: genError, lineError, posError"]}
{"id": "C04", "title": "Comments, blank lines and continuations do not change the rules", "statement": "Inserting a comment line, a blank line, or leading white space before a line, or a backslash-newline where white space may stand, does not change the tokens (types and values) that the rest of the file produces.", "quantifier": "every comment text, every amount of white space and every following input", "why_tests_cant": "the insertion point and the following input are unbounded", "anchors": ["rlex.go: lexComment, lexLineStart, lexLineRunning, skipWhitespace"]}
{"id": "C05", "title": "Parsing a rules text always terminates and never panics", "statement": "For every byte string, Parse returns either rules or an error; it never hits the 'trying to consume an error' or 'should be impossible' panics and never loops, for every nesting depth of parentheses and not.", "quantifier": "every byte string and every file system content for includes", "why_tests_cant": "panics and non-termination need all inputs; a crash takes the whole server down because rules are reloaded on every connection", "anchors": ["rparse.go: Parse, pFile, pRule, pRClause, pWith, pWClause, pAndl, pOrl, pTerm, pNot, pParen, consume"]}
{"id": "C06", "title": "The expression parser accepts exactly the documented grammar", "statement": "A token sequence is accepted as a match expression with result e if and only if the documented grammar (andl/orl/term with 'or' binding tighter than juxtaposition, not binding tightest, parentheses) derives that sequence with that structure.", "quantifier": "all token sequences, all nesting depths; both directions", "why_tests_cant": "soundness and completeness with respect to a grammar range over infinitely many sentences", "anchors": ["rparse.go: grammar comment lines 5-37, pAndl, pOrl, pTerm, pNot, pParen, pArg, pDomain, pIPArg, pOnOff, pDblArgs, pCommaOpts"]}
{"id": "C07", "title": "A parsed rule never runs before its data exists", "statement": "In every successfully parsed file each rule's required phase is exactly the latest phase among the data its match operators look at, it is at most RCPT TO, and an explicit phase is never earlier than that; a rule with an explicit phase earlier than its requirement makes the parse fail.", "quantifier": "every input text that parses, every rule in it", "why_tests_cant": "the property is about all rule shapes; tests contain a single negative case", "anchors": ["rparse.go: pTerm, minReq, pRule, pPhase", "doc.go: When rules are checked"]}
{"id": "C08", "title": "With options of parsed rules are well formed", "statement": "In every successfully parsed file each set-with clause has at least one with option, a note never contains a newline, tls-opt is only 'off' or 'no-client', and every rule has at least one clause and every clause an expression.", "quantifier": "every input text that parses, every clause of every rule", "why_tests_cant": "needs all with clauses; decider() relies on these facts for every rule", "anchors": ["rparse.go: pWClause, pWith, pRClause, pRule"]}
{"id": "C09", "title": "Printing a rule and parsing it gives the rule back", "statement": "For every rule obtained from the parser whose arguments are plain words and whose with values contain no quote or backslash and are non-empty, parsing its printed form yields exactly that rule again.", "quantifier": "all rules with plain arguments: every expression tree, option set, phase, action, with set", "why_tests_cant": "the round trip is tested on 40 rules; it must hold for arbitrarily nested expressions and all option subsets", "anchors": ["rnodes.go: (*Rule).String, (*RClause).String, (Option).String, optsReverse", "rparse.go: Parse"]}
{"id": "C10", "title": "Include splices the included rules in place", "statement": "Including a file contributes exactly the rules of that file at the position of the include; if the included file cannot be read or parsed, or anything follows the file name, the whole parse fails; nested includes behave the same, to any depth the operating system allows.", "quantifier": "every include graph (acyclic of any depth, or cyclic up to the descriptor limit)", "why_tests_cant": "include graphs are unbounded and there is no test of a non-empty include", "anchors": ["rparse.go: pInclude, pFile", "sinksmtp.go: loadRules"]}
{"id": "C11", "title": "Command line options compile to the documented rules", "statement": "For every combination of -nostdrules, -M, -fromreject, -toaccept, -heloreject and for every file name free of white space, commas, parentheses and semicolons, the base rules are exactly the documented ones in the documented order.", "quantifier": "all option combinations and all such file names", "why_tests_cant": "file names are unbounded; there is no test of buildRules", "anchors": ["sinksmtp.go: buildRules, genStallRules", "doc.go: How sinksmtp's command line options are implemented"]}
{"id": "C12", "title": "Address patterns mean what the manual says", "statement": "An address local@domain matches a pattern exactly when the pattern is the lower-cased address, 'local@', '@domain', '@', or '@.suffix' where suffix is the domain or a dot-separated tail of it; the null address matches only '<>' (or an empty pattern); an address without @ matches only itself and 'name@'.", "quantifier": "every address and every pattern", "why_tests_cant": "iff over all pairs of strings; domain depth is unbounded", "anchors": ["rules.go: matchAddress, sDotIter", "doc.go: Address and hostname patterns"]}
{"id": "C13", "title": "Host patterns mean what the manual says", "statement": "A non-empty host name matches a pattern exactly when, after lower-casing and dropping one trailing dot (unless the pattern ends in a dot), the pattern is the host, '.host', or '.suffix' for a dot-separated proper tail of the host.", "quantifier": "every host name and every non-empty pattern", "why_tests_cant": "iff over all pairs of strings", "anchors": ["rules.go: matchHost, sDotIter"]}
{"id": "C14", "title": "IP patterns match by network containment", "statement": "When the client address is a valid IP, an 'ip' pattern matches exactly when it denotes the same address or a CIDR block whose prefix bits equal those of the address; IPv4 and IPv6 never match each other; text that is neither never matches.", "quantifier": "every client address, every pattern, every prefix length", "why_tests_cant": "2^32 and 2^128 addresses times all prefix lengths", "anchors": ["rules.go: matchIp", "conncfg.go: find"]}
{"id": "C15", "title": "Matching ignores letter case", "statement": "For ASCII text, changing the case of letters in an address or host name, in a literal pattern, or in a line of a pattern file never changes whether it matches.", "quantifier": "all ASCII addresses, hosts, patterns and all case changes", "why_tests_cant": "2^n case variants of every string", "anchors": ["rules.go: matchAddress, matchHost, getMatchList", "sinksmtp.go: readList"]}
{"id": "C16", "title": "Pattern files are read line by line", "statement": "Loading a pattern file yields, in order, every newline-terminated line with surrounding white space removed and lower-cased, except blank lines and lines starting with '#'; no entry is ever empty; a final line without a newline should also count.", "quantifier": "all file contents", "why_tests_cant": "all byte strings; the last-line case is not tested", "anchors": ["sinksmtp.go: readList, loadList"]}
{"id": "C17", "title": "Rule operators are the Boolean operators", "statement": "With the outside world held fixed, a series of operators matches iff all match, 'or' iff one side matches, 'not' iff the operand does not, for every expression tree, as long as no consulted pattern file is empty.", "quantifier": "all expression trees, all contexts", "why_tests_cant": "unbounded expression trees with shared mutable caches", "anchors": ["rnodes.go: AndL.Eval, OrN.Eval, NotN.Eval, AllN.Eval, TlsN.Eval, MatchN.Eval, OptionN.Eval, DNSblN.Eval, DblNode.Eval, matchSource.Eval"]}
{"id": "C18", "title": "A rule that consults an empty or missing pattern file does nothing", "statement": "If evaluating a rule consults a pattern file that is empty, missing or unreadable, the rule neither decides the result nor sets any with option, whatever not/or surround the operator, and the remaining rules are still checked.", "quantifier": "all rules, all positions of the operator in the expression, all phases", "why_tests_cant": "depends on the flag surviving every operator combination", "anchors": ["rnodes.go: MatchN.Eval, (*Rule).check", "rules.go: Decide, ruleForEachRcpt, getMatchList"]}
{"id": "C19", "title": "A connection sees one snapshot of each pattern file", "statement": "During one connection each pattern file is read at most once and every rule in every phase sees the same contents, even if the file changes meanwhile.", "quantifier": "every sequence of decisions in a connection and every schedule of file changes", "why_tests_cant": "depends on arbitrary interleavings of file changes", "anchors": ["rules.go: getMatchList, newContext"]}
{"id": "C20", "title": "DNS blocklist hits are sticky and reported once", "statement": "Once a name has been found listed (or definitely not listed) in a connection the answer does not change for the rest of that connection; the hits reported for a decision are free of duplicates and every reported list was answered positively in that connection.", "quantifier": "every sequence of decisions and every behaviour of the DNS over time", "why_tests_cant": "DNS answers vary arbitrarily over time", "anchors": ["rules.go: getDnsblRes, addDnsblHit, validDomain", "rnodes.go: DNSblN.Eval, DblNode.Eval"]}
{"id": "C21", "title": "Rule evaluation depends only on data already known", "statement": "Evaluating a parsed rule whose requirement is at most some phase gives the same result whatever the values of fields that only become known in later phases (MAIL FROM before @from, RCPT TO before @to, EHLO name before @helo).", "quantifier": "all parsed rules, all contexts, all values of the unavailable fields", "why_tests_cant": "non-interference is a statement about pairs of executions", "anchors": ["rparse.go: minReq, pTerm", "rnodes.go: Eval methods"]}
{"id": "C22", "title": "The first eligible matching rule decides", "statement": "With the outside world held fixed, the outcome of a phase is the action of the first rule, in order, that is eligible in that phase, is not a set-with, and has a matching clause; if there is none there is no result.", "quantifier": "all rule lists, all phases, all contexts", "why_tests_cant": "rule lists of any length with cached side effects", "anchors": ["rules.go: Decide", "rnodes.go: (*Rule).check", "doc.go: The order of rule checking"]}
{"id": "C23", "title": "With options: last matching set-with wins, the deciding rule overrides", "statement": "The with options in effect after a decision are those of the matching clauses of the eligible rules up to and including the deciding rule, later ones overriding earlier ones; within a rule only the first matching clause counts; nothing survives from earlier decisions.", "quantifier": "all rule lists, all phases, all contexts", "why_tests_cant": "override order over arbitrarily many rules", "anchors": ["rules.go: Decide", "rnodes.go: (*Rule).check"]}
{"id": "C24", "title": "A rule with an explicit phase runs only in that phase", "statement": "A rule written with an explicit phase has no effect whatsoever on the outcome of any other phase: removing it leaves every other phase's result and with options unchanged.", "quantifier": "all rule lists, all positions of the rule, all phases", "why_tests_cant": "comparison of two rule sets over all inputs", "anchors": ["rules.go: Decide lines 462-485"]}
{"id": "C25", "title": "MAIL FROM:<> is never refused by rules", "statement": "Whatever the rules, the decision for a null sender is never reject or stall.", "quantifier": "all rule lists, all contexts, all earlier histories", "why_tests_cant": "universally quantified over rule sets", "anchors": ["rules.go: Decide lines 521-532", "doc.go: Things to note"]}
{"id": "C26", "title": "A refusal deferred from MAIL FROM:<> sticks", "statement": "If the rules would have refused a null sender, every later RCPT TO, DATA and message decision is that refusal with the same with options, until the next MAIL FROM or EHLO/HELO, which clears it.", "quantifier": "all sequences of later decisions of any length, all rule lists", "why_tests_cant": "unbounded histories", "anchors": ["rules.go: Decide lines 415-458"]}
{"id": "C27", "title": "After RCPT TO, recipient rules look at every accepted recipient", "statement": "At DATA and message time a rule that looks at recipients matches iff it matches for at least one accepted recipient taken alone (no consulted file empty); the recipient left in the context does not matter for later rules.", "quantifier": "all recipient lists, all rules", "why_tests_cant": "recipient lists of any length", "anchors": ["rules.go: ruleForEachRcpt, Decide"]}
{"id": "C28", "title": "Address attributes are consistent", "statement": "resolves, baddom and unknown are mutually exclusive and never reported for an address that is garbage, a route, unqualified or without @; an address without @ is never unqualified or route; the null address has no attributes; 'bad' stands for exactly noat, quoted, unqualified and garbage.", "quantifier": "all addresses and all DNS behaviours", "why_tests_cant": "all strings", "anchors": ["rules.go: getAddrOpts", "rnodes.go: oBad", "doc.go: Attributes of addresses et al"]}
{"id": "C29", "title": "HELO attributes are consistent", "statement": "Exactly one of helo/ehlo holds; bareip and properip exclude each other when a bracketed text is not itself an IP; at most one of remip/myip/otherip holds and, when the client and server addresses are known, one holds only if the name is an IP literal; 'none' holds exactly for an empty name.", "quantifier": "all HELO names, all addresses", "why_tests_cant": "all strings", "anchors": ["rules.go: heloGetter"]}
{"id": "C30", "title": "Reverse DNS attributes are consistent", "statement": "Exactly one of nodns/exists holds, and good holds exactly when there is a verified name and no unverified one.", "quantifier": "all reverse DNS results", "why_tests_cant": "lists of any length", "anchors": ["rules.go: dnsGetter"]}
{"id": "C31", "title": "source is host, ehlo or from-domain", "statement": "'source P' matches iff the verified host name, the EHLO name or the MAIL FROM domain matches P, for literal and for file arguments.", "quantifier": "all arguments and contexts", "why_tests_cant": "all strings and file contents", "anchors": ["rnodes.go: matchSource, newSourceNode, matchFromHost"]}
{"id": "C32", "title": "dbl checks every source it names", "statement": "'dbl SRCS D' matches iff at least one of the names drawn from the named sources is listed in D, independently of the order in which names are looked up, and names from sources not listed are never looked up.", "quantifier": "all source sets, all name lists, all lookup orders", "why_tests_cant": "map iteration order is random", "anchors": ["rnodes.go: DblNode.Eval"]}
{"id": "C33", "title": "The recorded envelope is exactly what was accepted", "statement": "At the time a message arrives the recorded EHLO name, sender and recipients are the arguments of the last accepted EHLO/HELO, the last accepted MAIL FROM since, and the accepted RCPT TOs since that MAIL FROM, in order.", "quantifier": "all event sequences of any length, all rules", "why_tests_cant": "unbounded SMTP histories", "anchors": ["sinksmtp.go: process, decider"]}
{"id": "C34", "title": "savedir set by a rule sticks for the connection", "statement": "A message is stored under the savedir given by the most recent earlier decision of the connection that set one, or the -d directory when none did.", "quantifier": "all event sequences", "why_tests_cant": "unbounded histories", "anchors": ["sinksmtp.go: decider, handleMessage, process"]}
{"id": "C35", "title": "-M never accepts a message", "statement": "With -M no message is ever answered with acceptance, whatever the other rules and whatever the client does.", "quantifier": "all event sequences, all rule files", "why_tests_cant": "unbounded histories and rule sets", "anchors": ["sinksmtp.go: buildRules, process", "rules.go: Decide"]}
{"id": "C36", "title": "-toaccept and -fromreject hold whatever the rule files say", "statement": "With -toaccept F (F non-empty) a RCPT TO is accepted only if it matches a pattern of F; with -fromreject F a MAIL FROM matching a pattern of F is not accepted, except the null sender, all of whose recipients are then refused.", "quantifier": "all sequences, all rule files, all pattern files", "why_tests_cant": "must hold for every user rule set", "anchors": ["sinksmtp.go: buildRules, setupRules", "rules.go: Decide"]}
{"id": "C37", "title": "Broken rule files stall everything", "statement": "If any rules file cannot be read or parsed, no command is accepted on that connection (every EHLO, MAIL, RCPT, DATA, message is answered with a temporary failure except that MAIL FROM:<> is), and the connection does not count towards do-nothing detection.", "quantifier": "all file contents, all client behaviours", "why_tests_cant": "all histories", "anchors": ["sinksmtp.go: setupRules, process, genStallRules"]}
{"id": "C38", "title": "Do-nothing clients are stalled after N useless sessions", "statement": "With -dncount N, a client address is stalled on a new connection iff its recorded count has reached N and the record is younger than -dndur; each session that never reached -minphase adds exactly one (plus one per abandoned transaction), and a session that did reach it clears the record.", "quantifier": "all sequences of sessions and times, all interleavings of concurrent sessions", "why_tests_cant": "histories over time and concurrency", "anchors": ["sinksmtp.go: process, ipMap.Add, ipMap.Lookup, ipMap.Del, ipMap.Set"]}
{"id": "C39", "title": "make-yakker marks the client whatever else happens in the session", "statement": "If a matching rule set make-yakker at any point of a session, the client is recorded as a do-nothing client when the session ends.", "quantifier": "all sessions", "why_tests_cant": "all later events of the session", "anchors": ["sinksmtp.go: process lines 1190-1203", "doc.go: make-yakker"]}
{"id": "C40", "title": "Becoming a do-nothing client is logged exactly once", "statement": "Each time a client's count reaches the limit some session reports it, and only one does, under every interleaving of sessions.", "quantifier": "all interleavings of concurrent sessions of one client", "why_tests_cant": "schedules", "anchors": ["sinksmtp.go: process lines 1073-1095, 1205-1217"]}
{"id": "C41", "title": "Two TLS failures switch TLS off for 72 hours", "statement": "TLS is offered on a connection iff certificates are configured and fewer than two TLS failures of that address are recorded within 72 hours of each other and of now, unless a rule switched it off at connect; client certificates are requested only when no failure is recorded.", "quantifier": "all histories of TLS failures", "why_tests_cant": "histories over time", "anchors": ["sinksmtp.go: process lines 986-1016, TLSERROR case, ipMap", "doc.go: TLS"]}
{"id": "C42", "title": "A message is accepted only after it was stored", "statement": "Whenever a message is accepted and a save directory is in effect, a file with the message's name containing the complete record exists; any storage error leads to a temporary failure.", "quantifier": "all messages, all failure patterns of open/write/close, all crash points", "why_tests_cant": "failure patterns and crash points", "anchors": ["sinksmtp.go: handleMessage, process"]}
{"id": "C43", "title": "Stored files are never overwritten", "statement": "No sequence of messages, failures or crashes changes the contents of a file that existed before the message arrived.", "quantifier": "all histories, all crash points", "why_tests_cant": "histories and crash points", "anchors": ["sinksmtp.go: handleMessage"]}
{"id": "C44", "title": "Save names depend on exactly the documented data", "statement": "'msg' names depend only on the data; 'full' names do not depend on the connection id, time or client port; two messages with different records never share a name under 'all' unless the hash collides.", "quantifier": "all pairs of messages", "why_tests_cant": "relational over pairs", "anchors": ["sinksmtp.go: handleMessage, msgDetails, getHashes, genHash"]}
{"id": "C45", "title": "A saved record can be read back", "statement": "From a saved file the message body (everything after the first line that is exactly 'body'), sender and recipient list can be recovered exactly, for every message body, provided the envelope fields and the names from DNS and from certificates contain no newline.", "quantifier": "all bodies and envelopes", "why_tests_cant": "all byte strings, bodies may contain any metadata-looking line", "anchors": ["sinksmtp.go: msgDetails, writeDNSList", "doc.go: Information in log entries and save files"]}
{"id": "C46", "title": "One log line per received message", "statement": "Each received message adds exactly one newline-terminated line to the message log, provided envelope fields contain no newline.", "quantifier": "all messages", "why_tests_cant": "all envelopes", "anchors": ["sinksmtp.go: logMessage"]}
{"id": "C47", "title": "No client input crashes the server", "statement": "No sequence of SMTP events makes a connection's processing panic (a panic kills the whole server).", "quantifier": "all rule sets the parser accepts, all event sequences, all DNS answers", "why_tests_cant": "all inputs and rule sets", "anchors": ["sinksmtp.go: process, decider, logDnsbls, getSBLHits", "rules.go: getMatchList, matchHost", "rnodes.go: DblNode.Eval"]}
{"id": "C48", "title": "Connection parameters: first matching line wins", "statement": "The settings used for a connection are those of the first line whose LOCAL is '*', equals the local address:port, is the same IP, or is a CIDR containing it; without such a line, or with a broken file, the command line settings are used; a matching line without certificates switches TLS off.", "quantifier": "all configuration files and local addresses", "why_tests_cant": "all files", "anchors": ["conncfg.go: readConnFile, find, loadConnFile", "sinksmtp.go: process lines 953-966"]}
{"id": "C49", "title": "Connection parameter files are parsed strictly", "statement": "A file is accepted only if every non-comment line has at most three settings, each 'key=value' with a known key, and cert and key are given together; the entries then appear in file order.", "quantifier": "all file contents", "why_tests_cant": "all byte strings", "anchors": ["conncfg.go: readConnFile", "sinksmtp.go: loadCerts"]}
{"id": "C50", "title": "Reverse DNS names are classified completely and exclusively", "statement": "Every PTR name of the client ends up in exactly one of verified / no-forward / inconsistent (with multiplicity), verified iff its forward lookup contains the client address; each list is sorted.", "quantifier": "all DNS answers", "why_tests_cant": "lists of any length", "anchors": ["rdns.go: LookupAddrVerified"]}
{"id": "C51", "title": "Mail domain validity", "statement": "A domain is valid iff its MX lookup succeeds, no MX is '.' or 'localhost.', and some MX host has only public addresses; or the MX lookup fails permanently and the domain itself has only public addresses; any bogus MX makes it bad; the verdict does not depend on the order of the MX records.", "quantifier": "all MX sets, all orders, all address answers", "why_tests_cant": "permutations and unbounded lists", "anchors": ["mxresolve.go: ValidDomain, checkIP, isTemporary"]}
{"id": "C52", "title": "Private and non-unicast addresses are never deliverable", "statement": "A host is deliverable iff it has at least one address and none of its addresses is unspecified, loopback, multicast, link-local, limited broadcast, in 10/8, 172.16/12, 192.168/16, fc00::/7 or fec0::/10.", "quantifier": "all address lists over all IPv4 and IPv6 addresses", "why_tests_cant": "2^128 addresses", "anchors": ["mxresolve.go: checkIP, net10, net172, net192, ipv6private, ipv6siteloc"]}
{"id": "C53", "title": "Connections do not disturb each other's rules", "statement": "The rules a connection works with are the base rules followed by the rules it loaded itself, for its whole life, whatever other connections load later.", "quantifier": "all interleavings of connections with changing rule files", "why_tests_cant": "schedules and slice capacity", "anchors": ["sinksmtp.go: accumRules, setupRules, process"]}
{"id": "C54", "title": "IP tables behave atomically under concurrency", "statement": "Under every interleaving of concurrent Add/Set/Del/Lookup calls the table behaves as if the calls happened one at a time; Add returns the number of Adds since the record was created, last expired, deleted or set.", "quantifier": "all schedules of any number of callers", "why_tests_cant": "schedules", "anchors": ["sinksmtp.go: ipMap.Add, Set, Del, Lookup"]}
{"id": "C55", "title": "The lexer goroutine never leaks", "statement": "Under every schedule, after Parse returns the lexer goroutine has finished, and the two never deadlock.", "quantifier": "all schedules, all inputs, all points at which parsing stops", "why_tests_cant": "schedules", "anchors": ["rlex.go: run, emit, nextItem, drain", "rparse.go: Parse"]}
{"id": "C56", "title": "Repeated warnings are suppressed", "statement": "Of the warnings sent, in any order by any number of goroutines, exactly those that are non-empty and differ from the warning received just before them are printed, in order.", "quantifier": "all sequences of warnings", "why_tests_cant": "unbounded sequences", "anchors": ["sinksmtp.go: warnonce, warnbackend"]}
{"id": "C57", "title": "DNSBL hit counters are exact", "statement": "After any sequence of updates by any number of goroutines each counter equals the number of times its name was reported, and a snapshot does not change afterwards.", "quantifier": "all sequences and interleavings", "why_tests_cant": "unbounded histories", "anchors": ["sinksmtp.go: dnsblCounts.Add, Stats"]}
{"id": "C58", "title": "Every SMTP log record is written atomically", "statement": "Each logged record, of any size, is passed to the log file in exactly one write consisting of the connection prefix followed by the record.", "quantifier": "all records of all sizes", "why_tests_cant": "buffer-boundary sizes", "anchors": ["sinksmtp.go: smtpLogger.Write"]}
{"id": "C59", "title": "Unsafe option combinations are refused at start", "statement": "The server starts only if messages are saved, or refused with -M, or acceptance was forced; -save-hash is valid and msg has -l; -dncount has -smtplog and a duration of at least a second; certificate and key come together; -minphase is valid.", "quantifier": "all option combinations", "why_tests_cant": "many combinations, all strings", "anchors": ["sinksmtp.go: main lines 1567-1676"]}
{"id": "C60", "title": "Phases progress: minphase bookkeeping", "statement": "A session is regarded as having reached -minphase iff an event of that kind was accepted in it (a received message for 'message', an accepted one for 'accepted'), or storing a message failed.", "quantifier": "all event sequences", "why_tests_cant": "unbounded histories", "anchors": ["sinksmtp.go: process"]}
{"id": "C61", "title": "TLS protocol names are unambiguous", "statement": "Different TLS protocol version numbers are reported by different names.", "quantifier": "all pairs of 16 bit version numbers", "why_tests_cant": "2^32 pairs", "anchors": ["sinksmtp.go: tlsProtoVersion"]}
{"id": "C62", "title": "A comma always joins two things", "statement": "In every rules file a comma token stands for a comma in the text, and if white space, the end of the line or the end of the file follows that comma, lexing ends with an error right after it.", "quantifier": "all rules files", "why_tests_cant": "the position of the comma and what surrounds it are unbounded", "anchors": ["rlex.go: lexSpecial"]}
{"id": "C63", "title": "Every command is answered exactly once", "statement": "MAIL FROM, RCPT TO and DATA each get exactly one answer, at once; a received message gets exactly one answer, in the fifth step after its arrival at the latest and before any other command is taken; an EHLO or HELO gets an answer only if it is refused; nothing else is answered and nothing happens after the end of the session.", "quantifier": "all connections, rules, event sequences, storage failures and interleavings with other connections", "why_tests_cant": "a double or missing answer desynchronises the dialogue only on particular paths through refusals, storage errors and drops", "anchors": ["sinksmtp.go: process, decider, doAccept, handleMessage"]}
{"id": "C64", "title": "The answer is the decision of the rules", "statement": "A command or message is rejected iff the rules say reject, deferred iff they say stall, and accepted otherwise, with the text of the rule's message option or the default text, and for messages with the ID under which the message was to be saved (its hash if nothing is saved); the only exceptions are the drop after too many RSETs and messages that could not be stored. On connecting only reject ends the session.", "quantifier": "all rules, contexts, worlds, commands and messages", "why_tests_cant": "the answer depends on arbitrary rules and state, and several code paths send answers", "anchors": ["sinksmtp.go: decider, doAccept, pluralRecips, process"]}
{"id": "C65", "title": "Statistics are exact", "statement": "At any time each event counter equals the number of times the event it stands for has happened on all connections: commands, accepted commands, messages, TLS sessions and failures, RSETs, RSET drops, quits, aborts, stalled clients, failed rule loads, and, for sessions that count, endings after a refusal versus after something accepted. The numbers obey the obvious laws, e.g. starttls = tlson + tlserrs, and every closed session was ended by exactly one quit, abort, RSET drop or drop on connect.", "quantifier": "all histories of the server under every interleaving of connections", "why_tests_cant": "counter errors appear only on particular paths", "anchors": ["sinksmtp.go: process, events, setupExpvars"]}
{"id": "C66", "title": "The SMTP log says what happened, once", "statement": "With -smtplog each step of a connection adds to its log exactly the lines due, in this order: the blocklist hits of its decision followed by the SBL record names of the client, the DNS error of the decision, the note of the deciding rules, and its own remark, which is the drop on connect with client and time, the name and verification of the client certificate seen first with an accepted EHLO, the client found to do nothing by its RSETs with its hit count, or, when the session ends, the client found or forced to be a do-nothing client; otherwise there is none. A hit or error line is omitted if it is the same as the last line of its kind in this connection; a hit is counted in the blocklist statistics exactly when its line is logged, and so are the SBL records, which are what comes after the last slash in the TXT records of the client's name in the SBL, in ascending order and each as often as it occurs there. The -dnlog log gets one line, naming the connection, client and local address, for a stalled connection and for a client reported at the end of its session, and nothing else. Without -smtplog, and for stalled clients, nothing is logged or counted.", "quantifier": "all connections, rules, worlds, event sequences and interleavings", "why_tests_cant": "repetition is suppressed relative to the whole history of the connection", "anchors": ["sinksmtp.go: decider, logDnsbls, getSBLHits, process"]}
{"id": "C67", "title": "-heloreject is effective", "statement": "With -heloreject F, whatever the rules files say: if the name in the last EHLO or HELO of the client matches a pattern of F as the connection read it, MAIL FROM is refused, and for the null sender every recipient until the next EHLO, HELO or MAIL FROM is refused.", "quantifier": "all rules files, connections, worlds and event sequences", "why_tests_cant": "arbitrary rules come after the generated rule, and the name may be given again at any time", "anchors": ["sinksmtp.go: buildRules, setupRules, process, decider", "rules.go: Decide"]}
{"id": "C68", "title": "The standard rules are effective", "statement": "With the standard rules, whatever the rules files say: a MAIL FROM or RCPT TO with a malformed address (no @, a source route, an unqualified domain, garbage) is refused, and so is an EHLO or HELO without a name.", "quantifier": "all rules files, connections, worlds, event sequences and addresses", "why_tests_cant": "arbitrary rules come after the standard rules; arbitrary addresses", "anchors": ["sinksmtp.go: buildRules, setupRules, process, decider", "rules.go: Decide", "rnodes.go: getAddrOpts, heloGetter"]}
{"id": "C69", "title": "Every accepted connection is served once, under its own number", "statement": "Sessions are numbered 1, 2, 3, ... in the order in which they begin; no connection is served twice, none is served that was not accepted, and at any time all but at most the last two connections of each listener have been served, in order; an accepted connection can always still be served without another one coming in; the connection counter is the number of sessions, but for one about to begin. Errors of Accept do not matter.", "quantifier": "any number of listeners and connections, all interleavings of the goroutines", "why_tests_cant": "needs all interleavings; a lost or duplicated connection shows only in rare schedules", "anchors": ["sinksmtp.go: listener, main"]}
{"id": "C70", "title": "The times of last events", "statement": "A time published as that of the last event of a kind (overall or for a local address) is one at which such an event was recorded, and no such event was recorded by a call both begun and finished after that call had finished; once an event has been recorded a time is published wherever it belongs; for connections it is always the last one. Without -pprof nothing is published.", "quantifier": "all interleavings of main and any number of sessions recording events", "why_tests_cant": "lost updates in get-then-create sequences show only in rare schedules", "anchors": ["sinksmtp.go: updateTimeOf, updateOneTime, setupExpvars, main, process"]}
{"id": "C71", "title": "Clients do not notice clients at other addresses", "statement": "Take any run of the server and remove everything done by clients at other addresses than A: what remains is a possible run of the server with the same files at the start, in which the clients at A are answered, logged, saved, stalled and offered TLS exactly as before, provided no two addresses have messages saved under the same name; with -save-hash all that can only happen if the hash collides.", "quantifier": "all runs of the server with any number of interleaved connections, all addresses", "why_tests_cant": "a comparison of two runs; interference between clients shows only for particular interleavings and table contents", "anchors": ["sinksmtp.go: process, ipMap, handleMessage"]}
{"id": "C72", "title": "Earlier rules have priority over later ones", "statement": "A connection that is not stalled obeys, for its whole life, the rules made from the options followed by those of the files given with -r in the order given, as they could be read when it began, or if one could not be used only the rule that stalls everything. What the earlier rules decide (result, with options, external lookups) is not changed by later rules; where they decide nothing the later rules do.", "quantifier": "all options, rules files, file systems, connections, contexts and worlds", "why_tests_cant": "unbounded rule lists; an order mistake is visible only when rules of several sources match", "anchors": ["sinksmtp.go: setupRules, accumRules, loadRules, buildRules, process", "rules.go: Decide"]}
{"id": "C73", "title": "Saved messages say where they came from", "statement": "From the file in which a message is saved one can read back, unambiguously, the ID of the connection, the address and port of the client, the time, the local address, the last accepted EHLO name whatever it looks like, the client's DNS names in the three lists made when the connection began, whether TLS was used, its cipher and protocol numbers, the server name and certificate name and whether that was verified, and the hashes and the size of the message.", "quantifier": "all connections, event sequences, EHLO names, messages, DNS answers and TLS states, as long as addresses and DNS names contain no white space and names from TLS no newlines or single quotes", "why_tests_cant": "arbitrary texts chosen by the client are put next to each other in a line format", "anchors": ["sinksmtp.go: msgDetails, writeDNSList, handleMessage, process, getHashes, tlsName, tlsProtoVersion"]}
{"id": "C74", "title": "What rules say about TLS lasts for the connection", "statement": "TLS is set up once, before the client is greeted. It is still offered at a later time exactly if it was offered then and no answer of the rules since came with tls-opt off; client certificates are still asked for exactly if they were asked for then and no answer since came with tls-opt no-client; the certificates never change. Later answers without the option take nothing back.", "quantifier": "all settings, rules, worlds, event sequences and interleavings with other connections, at every point of a connection", "why_tests_cant": "sequences of commands in which the option comes and goes in any order", "anchors": ["sinksmtp.go: decider, process"]}
{"id": "C75", "title": "The outside world is asked only what the rules need", "statement": "For a connection files are opened and DNS queries are made only: at the beginning for the name of the server if none was given and for the connection parameters if there are any; on connecting for the names of the client's address and their addresses; when the rules are asked, those that an expression of a rule eligible in this phase mentions, about the client, the name, the sender and the recipients known then, and of no rule behind the one that decided; and for the reasons of an SBL listing that is reported in the log. No other event causes any.", "quantifier": "all settings, rules, worlds, event sequences and interleavings", "why_tests_cant": "the absence of queries over all rules and event sequences; a query too many is not visible in the answers", "anchors": ["rnodes.go: Eval of all nodes", "rules.go: Decide, getMatchList, getDnsblRes, validDomain", "sinksmtp.go: process, decider, logDnsbls, getSBLHits", "rdns.go: LookupAddrVerified", "mxresolve.go: ValidDomain"]}
{"id": "C76", "title": "Answers follow from the rules and the commands sent so far", "statement": "If the outside world does not change during a connection, every answer is determined by the rules, the commands the client has sent and which of them were accepted: the action and the message are those of the first rule that matches what has been said, with the last option of each kind up to it; a null sender that the rules refuse is accepted and its refusal given instead to what follows, until the next sender or greeting. Results remembered from earlier commands, and their order, never change an answer. The only other answer is the drop after too many RSETs. On connecting only reject has an effect.", "quantifier": "all options, rule files, worlds that do not change, event sequences and interleavings with other connections", "why_tests_cant": "answers depend on the whole history of commands through caches and a delayed refusal", "anchors": ["rules.go: Decide", "rnodes.go: Eval of all nodes", "sinksmtp.go: decider, process"]}
{"id": "C77", "title": "Rules about the client hold for the whole connection", "statement": "A rule without a phase that depends on nothing the client says matches either at every decision of a connection or at none. In the first case the rules after it could be removed and every answer of the connection would be the same; in the second the rule itself could be. If the first rule is of this kind, accepts and matches, every command is accepted (unless dropped for RSETs); if it rejects and matches, the client is dropped without a greeting.", "quantifier": "all options, rule files, worlds that do not change, event sequences and interleavings with other connections", "why_tests_cant": "compares the answers under two sets of rules over whole connections", "anchors": ["rules.go: Decide", "rparse.go: rule", "sinksmtp.go: decider, process"]}
{"id": "C78", "title": "The message log can be read back", "statement": "From each line of the message log a reader that knows only the format gets back the time, the ID of the connection, the client's and the local address, the sender and the recipients accepted, in order, the size and the hashes of the message, the EHLO name whatever it looks like, and whether TLS was used with the numbers of cipher and protocol. The condition is that accepted addresses contain no '>'; without it two different messages can give the same line.", "quantifier": "all settings, rules, worlds, event sequences and interleavings, messages and EHLO names", "why_tests_cant": "the client chooses names and addresses, and would choose those that look like log text; no sample shows that none confuses a reader", "anchors": ["sinksmtp.go: logMessage, msgDetails, handleMessage, process"]}
{"id": "C79", "title": "Errors in rules files are reported at their place", "statement": "When a rules file is refused for its text, the message begins with the line, or the line and column, of a word of the file. Everything before the statement this word belongs to is in order, and no change after the word can repair the file: every text that begins with the same words, up to and including the one named, is refused too. A file that cannot be included is named with the reason, at the line where the include statement ends, and so on through nested includes.", "quantifier": "all texts, all continuations, all contents of included files", "why_tests_cant": "ranges over all ways to go on after the place named; a wrong line number is easily missed in a file with continued lines and includes", "anchors": ["rparse.go: genError, lineError, posError and all parsing functions", "rlex.go: lineInfo", "sinksmtp.go: loadRules"]}
{"id": "C80", "title": "Broken configuration files are reported", "statement": "Each new connection whose rules files (-r) cannot all be used warns exactly once, naming the first file on the command line that cannot be read or parsed and the reason, and says nothing if they all can be used; nothing is said about the rules files later in the connection. If the connection parameter file (-conncfg) cannot be read or has a wrong line, the connection warns exactly once, naming the file and what is wrong; for a wrong line this is its line number and the complaint: too many fields, a field without =, an unknown key, a certificate without key or key without certificate, unequal numbers of certificates and keys, or the first certificate and key that cannot be loaded; the complaint is always about the first wrong line. Conversely a warning is given only if this is so.", "quantifier": "all options, rules files, connection parameter files, certificates and times", "why_tests_cant": "line numbers and the choice of the first error depend on everything that comes before it in files of any length", "anchors": ["sinksmtp.go: setupRules, process, loadCerts", "conncfg.go: readConnFile, loadConnFile"]}
{"id": "C81", "title": "Without -dncount nobody is a do-nothing client", "statement": "If -dncount is not given, then whatever clients do and whatever the rules say, make-yakker included, no connection is stalled as that of a do-nothing client, no client is reported or counted as one, none is cut off for its RSETs, and the log of do-nothing clients stays empty. The table of these clients can only hold records with the count 0.", "quantifier": "all other options, rules, worlds, event sequences and interleavings of connections", "why_tests_cant": "the absence of an effect over all runs; the table is written even without the option, so that this depends on the values in it", "anchors": ["sinksmtp.go: process, yakLog", "doc.go: make-yakker"]}
{"id": "C82", "title": "The books of the address tables balance", "statement": "Whenever the statistics of the tables of do-nothing clients and of failed TLS are asked for, under any interleaving of calls, the numbers fit each other: the size is the number of new records less those deleted and those found too old; records made or renewed are no more than the calls that can do so; hits and records found too old are no more than the lookups. When no call is going on, the numbers of Add, Set and Lookup are the numbers of calls made with an address. For the server: one lookup per connection, an Add or Set for each mark of a client and for each failed TLS negotiation, and none else.", "quantifier": "all numbers of goroutines and interleavings of calls; all runs of the server", "why_tests_cant": "a forgotten increment shows only after particular sequences of expiry and deletion; torn statistics only in rare schedules", "anchors": ["sinksmtp.go: ipMap.Add, Set, Del, Lookup, Stats, setupExpvars, process"]}
{"id": "C83", "title": "The statistics page shows each number under its own name", "statement": "Under each name of the smtpcounts and events on the statistics page is, at any time, the number of times that what the name says has happened, over all connections: commands received and accepted, messages, TLS, QUITs, aborts, RSETs, TLS errors, stalled connections, connections not offered TLS, unusable rules, cut off clients, sessions abandoned and refused, and reports of do-nothing clients, plain and forced. Every counter of the program has exactly one name, and the page consists of these, the tables, the times and the constants; the statistics by local address are there exactly with more than one address.", "quantifier": "all options, rules, worlds, event sequences and interleavings of connections", "why_tests_cant": "a wrong name or counter is seen only if the numbers happen to differ; the numbers are sums over unbounded histories", "anchors": ["sinksmtp.go: setupExpvars, events, process"]}
{"id": "C84", "title": "White space and line ends in configuration files do not matter", "statement": "White space around the lines of pattern files and connection parameter files, of any Unicode kind, makes no difference: files that differ only in this give the same patterns, and the same settings or the same complaint about the same line. In particular both can have CR LF line ends. (Rules files cannot.)", "quantifier": "all files and all white space", "why_tests_cant": "all pairs of files; multi-byte white space next to partial sequences", "anchors": ["sinksmtp.go: readList", "conncfg.go: readConnFile"]}
{"id": "C85", "title": "Rules written in equivalent ways give the same answers", "statement": "Replacing rules, in any place of the rules, by others that the manual's semantics makes equivalent changes the ruling on no command of any connection: A for not not A, De Morgan's laws, the associative and left distributive laws, dropping repeated terms, source A for host A or ehlo A or from @A, attribute lists for an or of attributes, dns exists for not dns nodns, clauses with equal options for an or, an or for two rules needing the same data, clauses for rules, leaving out repeated, narrower and never matching rules, reordering rules with equal action and options; and, where no pattern file is involved, the order of or and and.  Three near misses of these laws do not hold.", "quantifier": "all rules, all places among other rules, all worlds that do not change, all connections and all their commands", "why_tests_cant": "A law is about all pairs of rule sets and all situations in which they are used; a test compares two texts in one session.", "anchors": ["rules.go: Decide, Check", "rnodes.go: Rule, Expr", "doc.go: source, dns, phases, with options"]}
{"id": "C86", "title": "A connection sees one state of the world", "statement": "Files of patterns, mail exchangers and names of addresses may change at any time while a connection is open. Yet there is a single unchanging world, which gives to every question the connection asked the answer it got when it asked, such that every reply of the connection is the one that follows in that world from its rules and the commands sent so far; so is the decision on connecting. No reply mixes an old and a new state of a file or a domain, and none contradicts an earlier reply. (Only the addresses of host names are supposed to stay, because they can be asked for twice; that this is needed is proved too: when the address of a mail exchanger goes away during a connection, two senders whose domains share it can get answers that fit no single state of the DNS.)", "quantifier": "all options, rules, ways in which files, mail exchangers, address names and texts change over time, event sequences and interleavings with other connections", "why_tests_cant": "an inconsistency needs a change at a particular moment between two commands; the claim is about all changes at all moments", "anchors": ["rules.go: Decide, getMatchList, getDnsblRes, validDomain, newContext", "rnodes.go: Eval of all nodes", "sinksmtp.go: process, loadList", "rdns.go: LookupAddrVerified", "mxresolve.go: ValidDomain"]}
{"id": "C87", "title": "Adding rules has only the effect it should have", "statement": "Rules added in any places among others never do the opposite of what they say. Adding accept rules refuses nothing more: whatever is refused with them was refused without them. Adding reject and stall rules lets nothing more through: whatever is accepted with them was accepted without them, with the same options, and whatever was refused is still refused. Adding set-with rules changes no decision; an option is then either as before or as one of the added rules gives it. This is so for every command after every history, also for the refusal of a null sender that is given to later commands, and for the decision on connecting.", "quantifier": "all rules, all places and numbers of added rules, worlds that do not change, histories of commands", "why_tests_cant": "compares the rulings under two sets of rules over all histories", "anchors": ["rules.go: Decide", "rnodes.go: Eval of all nodes", "sinksmtp.go: decider"]}
{"id": "C88", "title": "Earlier mail and other recipients do not matter", "statement": "In a world that does not change the answer to a command depends only on the last greeting, whether TLS is on, the sender of the transaction, for DATA and messages the recipients accepted in it, and the command itself. So a client gets the same answers in the second transaction of a connection as it would in the first, or on a new connection; commands that were refused, messages sent before and their texts, and the other recipients do not matter to a RCPT TO. For DATA and messages the order of the recipients and repeating one do not matter to the action either, if no empty pattern file is consulted, nor to the options, if the clauses of each rule have the same ones.", "quantifier": "all rules from rules files, worlds that do not change, pairs of histories of one or two connections", "why_tests_cant": "compares two runs with arbitrarily different histories", "anchors": ["rules.go:415-536", "rules.go:330-412", "sinksmtp.go:768-852", "sinksmtp.go:1010-1180"]}
{"id": "C89", "title": "IPv4 addresses and blocks mean what they say", "statement": "With the IPv4 parsers of Go's package net: text without a colon is an address iff it is four numbers below 256 with dots between them, and a block iff it is such an address, a slash and a number up to 32; `ip PATTERN` for a client e.f.g.h holds iff PATTERN is this address or a block a.b.c.d/n such that the first n bits agree (for n = 8k: the first k numbers); a rule with any other pattern is an error. Leading zeros do not matter up to Go 1.16; from Go 1.17 on an address with leading zeros is no address.", "quantifier": "all texts, all clients with an IPv4 address, all addresses and block lengths, both versions of the parser", "why_tests_cant": "there are 2^32 clients and 33 * 2^32 blocks, and the texts of patterns are arbitrary; a wrong bit at a block boundary is met by few of them", "anchors": ["rules.go:370-387", "rparse.go:185-195", "conncfg.go:29-52", "mxresolve.go:67-69"]}
{"id": "C90", "title": "A client is known by the address it connects from", "statement": "Go's net.SplitHostPort divides a text iff it is host:port with no other colon or bracket, or [host]:port with no other bracket and no colon in the port; any other text gives the empty host. So a client on TCP is known to rules, the lists of clients and the log by its IP address without port and brackets, with %zone appended if the address has one. For an IPv4 client this is a.b.c.d, which stands for the same address when parsed again. Hence with `reject ip PATTERN` as only rule, PATTERN being an IPv4 address or block, every session from a client in it is closed on connecting without any reply, from whatever port; and every other IPv4 client is answered as if there were no rule.", "quantifier": "all texts; all IP addresses, zones and ports; all IPv4 addresses, blocks, sessions, options without generated rules", "why_tests_cant": "the exact set of divisible texts, and all clients of a block at all ports in all sessions, are infinite or too many", "anchors": ["sinksmtp.go:883-888", "sinksmtp.go:940", "conncfg.go:31-33", "rules.go:370-387"]}
{"id": "C91", "title": "Only connections that could have used TLS are counted as refused TLS", "statement": "A connection is added to the statistic notls_conns exactly when it is set up and the last two TLS failures of its client are less than 72 hours apart and the last is less than 72 hours ago; never twice. If TLS fails only where it was offered, every connection so counted has certificates, so that TLS would have been offered to another client, as the comment at the place says.", "quantifier": "all options, clients, interleavings of connections and times", "why_tests_cant": "about all histories of all clients; the wrong case needs failures on one local address and a later connection to another with different settings", "anchors": ["sinksmtp.go:978-1017", "conncfg.go:29-52", "sinksmtp.go:1366-1438"]}
{"id": "C92", "title": "Only mail that passed every phase is stored", "statement": "If the SMTP library delivers commands in the order of SMTP, then before every message that is taken stands an accepted EHLO or HELO, after it an accepted MAIL FROM, then at least one accepted RCPT TO, then an accepted DATA, with no other transaction in between, and the sender and recipients recorded with the message are the accepted ones. The rules passed each of these commands. So nothing is stored or logged as a message for a stalled client, while a rules file is broken, or when the rules let nothing of some phase pass; no stored message has a sender in the file of -fromreject, a recipient outside that of -toaccept, a last EHLO name in that of -heloreject, or, with the standard rules, a malformed address.", "quantifier": "all options, rules, DNS answers and all sequences of commands in the order that the library enforces", "why_tests_cant": "about every possible dialog of a client, with refusals, resets and repeated greetings at any place", "anchors": ["sinksmtp.go:768-852", "sinksmtp.go:1019-1235", "sinksmtp.go:626-681", "sinksmtp.go:1301-1348"]}
{"id": "C93", "title": "Every saved file comes from a message that was let in", "statement": "At any time, every file is as it was when the server started, or was not there then and holds a beginning of the record of a message that came in on some connection and was to be saved under that name. If the SMTP library delivers each client's commands in the order of SMTP, then on that connection the greeting, the sender, at least one recipient and DATA had been accepted before, the client was not stalled and the rules files were in order, and the record reads back as that sender, those recipients and the message (if nothing said by clients and DNS has newlines). While all connections find the rules files broken no file changes.", "quantifier": "all options, any number of clients, all interleavings, failures of file operations and crash points", "why_tests_cant": "about every file after every interleaving of connections, with failures at any place", "anchors": ["sinksmtp.go:626-681", "sinksmtp.go:871-1235", "sinksmtp.go:1711-1717"]}
{"id": "C94", "title": "How a client is received", "statement": "The SMTP library is told to send output slowly (a delay of a tenth of a second) to everybody with -S, and otherwise exactly to the clients that were do-nothing clients when they connected, by the history of their address; the conversation goes to the SMTP log, if there is one, except with these clients; the name in the greeting and in TLS is the same, and is the one for the local address (-conncfg, -helo, DNS, address); TLS is offered, without session tickets, exactly if there are certificates for the local address and the client did not fail twice in the last 72 hours, and a client certificate is asked for exactly if it did not fail at all.", "quantifier": "all options, all histories of all clients, all interleavings", "why_tests_cant": "depends on the whole history of an address over all connections", "anchors": ["sinksmtp.go:908-934", "sinksmtp.go:968-1019"]}
{"id": "C95", "title": "The times in the statistics are set when they should be", "statement": "When a connection begins the time of yakker or regular is set, according to whether the client is a do-nothing client by its history. Every message sets the time of message once, after it was answered. The time of reached_minphase is set exactly when the client ends (QUIT or lost connection) a session in which the phase of -minphase was reached or a message could not be stored, unless that phase is message; at most once for a connection.", "quantifier": "all options, all sequences of events, all histories", "why_tests_cant": "counts over arbitrary sequences of commands and failures", "anchors": ["sinksmtp.go:908-925", "sinksmtp.go:1141-1167", "sinksmtp.go:1221-1223"]}
{"id": "C96", "title": "The command line means what the options say", "statement": "A command line is accepted exactly if it consists of options, written -name=value, -name value, or -name alone for the five switches, with one dash or two and values that fit, up to the first other argument or --; the rest are the addresses to listen on. Every one of the 22 settings is the last value given to its own option, or its default, and nothing else counts: neither the order of different options nor how they are written. So a server with -M on its command line never accepts a message, without -d, -M and -force-receive none starts, -S slows down everybody, and times are kept per address exactly with several addresses or -statsperip.", "quantifier": "all command lines, all notations for numbers and durations, and for the consequences all worlds and all lives of connections", "why_tests_cant": "unboundedly many command lines; a pair of options stored in the wrong variables only shows with both of them", "anchors": ["sinksmtp.go:1535-1562", "sinksmtp.go:1679-1680", "doc.go:16-148"]}
{"id": "C97", "title": "A rules file of `reject from A to B` lines does what the manual says", "statement": "Let the only rules be a file of lines `reject from A to B`, where A and B need no quotes and name no files. Then a RCPT TO is refused, with 'We do not consent to you emailing that address', exactly if for some line the sender of the last MAIL FROM matches A and the recipient matches B. Every other command and every message is accepted in the plainest form, the null sender included, unless the client is dropped for too many RSETs; so DATA and messages are never refused and no accepted recipient is blocked. For full addresses matching means being equal apart from case.", "quantifier": "all lists of pairs of patterns, all sessions (sequences of commands, interference by other connections, pattern files, MX records and names that change)", "why_tests_cant": "The claim joins lexer, parser, rule loading, phases, evaluation and the session loop; tests look at single rules and single decisions.", "anchors": ["doc.go:257-260", "rules.go:415-536", "rparse.go:699-711", "sinksmtp.go:768-852"]}
{"id": "C98", "title": "With reject and stall rules only, what was let pass is not refused later", "statement": "Let every rule of a connection that accepts, rejects or stalls be a reject or stall rule without an explicit phase. Then, once a recipient was accepted in a transaction with an accepted MAIL FROM, DATA and the messages of the transaction are never refused by rules; a recipient is refused only because of a rule that looks at recipients (unless the sender is null, whose refusal waits for the recipients); after an accepted greeting a sender is refused only because of a rule that looks at the sender or at TLS (or after too many RSETs); and a greeting only because of a rule that looks at it, or a stall rule about the client, since these do nothing when it connects.", "quantifier": "all such sets of rules, all sequences of commands with any interference of other connections, in a DNS that does not change; TLS not turned on or off between MAIL FROM and the message", "why_tests_cant": "The claim compares the decisions of a set of rules in different phases of arbitrarily long sessions; tests look at one decision at a time.", "anchors": ["doc.go:411-424", "rules.go:415-536", "sinksmtp.go:768-852"]}
{"id": "C99", "title": "The SMTP log can be taken apart into conversations", "statement": "The prefixes pid/number of different connections differ, also of different processes, and main never gives a number twice. Any number of connections write to the log at the same time; if no write fails and every record is one line that does not begin with a digit, then the lines of the file that begin with the prefix of a connection and no further digit are exactly its records, complete and in order. The records of the server itself begin with '! ' and end with a newline, and are single lines if the texts in them are (addresses, times, names of blocklists, DNS texts, certificate names, notes of rules).", "quantifier": "all interleavings of any number of connections, all records, all process numbers and connection numbers", "why_tests_cant": "1 and 12, or a record that begins with a digit, are only confused in particular interleavings; quantifies over all logs", "anchors": ["sinksmtp.go:364-388", "sinksmtp.go:886", "sinksmtp.go:928-934", "sinksmtp.go:1705-1716"]}
{"id": "C100", "title": "The statistics of the whole program agree with what happened", "statement": "The parts put together, from the command line to the sessions, in any interleaving: every session is one that main started under its number for an accepted connection to one of the addresses on the command line; the number of connections on the page is that of the sessions (when none is about to begin), and the number for each local address that of the connections to it. When nobody is recording anything, the page has a time for a kind of event, overall or for a local address, exactly if one has happened (a do-nothing client or another received, a message answered, a session ended that got as far as -minphase); the time is not before the event it was recorded for, and no such event happened after that recording was over.", "quantifier": "all runs of the whole program: any number of listeners and sessions, all interleavings of their single steps, all clients, all times", "why_tests_cant": "Needs concurrent recordings in particular interleavings; quantifies over all histories", "anchors": ["sinksmtp.go:871-925", "sinksmtp.go:1167", "sinksmtp.go:1221-1223", "sinksmtp.go:1238-1246", "sinksmtp.go:1433-1474", "sinksmtp.go:1527-1717"]}
{"id": "C101", "title": "The examples of the manual, with any patterns", "statement": "Let the first rules file hold one of the manual's examples, with any patterns in place of its own, and let the other files hold any rules. `accept host H`: everything from a client of that name is accepted whatever the other rules say; with `@helo` in front only the greeting is, and everything else is answered as by the other rules. `@data reject all` refuses DATA and nothing else. `reject not from A to B` refuses the recipient B unless the sender is A. `@message reject ( from A or from B or from C ) to D not host H` refuses exactly such messages. Two set-with lines, for a sender and for all: the second message is given to everybody where the other rules give none, also for acceptance; joined by a semicolon, the first message goes to the sender and the second to all others, from MAIL FROM on. Other clients and commands are answered as if the lines were not there; only the deferred refusal of a null sender comes before, and its acceptance has no message. Two examples do not do what the manual says: with `@helo accept helo X`, `reject host Y` a client of the name Y does not get as far as HELO and MAIL FROM, and with `reject dnsbl D with message M` a listed client does not see the message; both are dropped in silence when they connect.", "quantifier": "all patterns, messages and other rules, all sessions in a DNS that does not change", "why_tests_cant": "Follows the text of the rules through lexer, parser, loading, phases and sessions, for all patterns and in combination with arbitrary other rules", "anchors": ["doc.go:302-331", "doc.go:352-379", "doc.go:391-419", "doc.go:698", "rules.go:415-536", "rparse.go:231-243", "sinksmtp.go:768-852", "sinksmtp.go:1030-1038"]}
{"id": "C102", "title": "A program started with care goes on", "statement": "The start of the program never panics: it starts, prints the usage message, or ends with an error message. If it was started with the standard rules (or without any rule about the EHLO name), ordinary names for the list files, and rules without empty patterns, without notes if there is no SMTP log and without sbl.spamhaus.org in dbl for clients that have no IPv4 address, then no command line, client, file, disk error or DNS answer (other than an empty name) brings it to a state in which one of its connections can panic; in particular without -nostdrules and -r. A connection whose client has gone comes to its end in at most six steps wherever it was.", "quantifier": "all command lines, all worlds at the start, all runs of the whole program with any number of connections, interleavings, events, disk errors, DNS answers", "why_tests_cant": "A panic in any connection ends the server for all; it depends on the combination of options, rules, client input and DNS.", "anchors": ["sinksmtp.go:1527-1717", "sinksmtp.go:871-1235", "rules.go:415-536", "rnodes.go"]}
{"id": "C103", "title": "The make-yakker example of the manual", "statement": "Let the first rules file hold `reject ehlo NAME with make-yakker`, with any name or pattern, and let the options for rules and the other files be arbitrary. An EHLO or HELO with such a name is refused. If the rules decide nothing more in that session, a later connection from the same address that begins less than -dndur after its end gets nothing but deferrals (with -dncount and -smtplog, and if no session from there that got as far as -minphase ended in between). Against the manual, \"regardless of what additional progress is made in the session\": a client that sends one more EHLO with another name before it leaves is not marked.", "quantifier": "all names, other rules, options, all runs of the server with any interleaving of connections, in a DNS that does not change", "why_tests_cant": "Follows the text of the rule through loading, decision, the end of the session and the table of addresses into another connection, under any interleaving", "anchors": ["doc.go:683-699", "sinksmtp.go:166-189", "sinksmtp.go:768-852", "sinksmtp.go:905-925", "sinksmtp.go:1187-1220", "rules.go:415-536"]}
{"id": "C104", "title": "Starting the program touches no files but its own", "statement": "Whatever the options and whatever is on the disk, starting the server, successful or not, changes no existing file and makes none, with two exceptions: log files that did not exist are made, empty, and a file called .wecanmake in the -d directory is emptied and removed. After a successful start exactly this has happened: the log files exist with what was in them before, the test file is gone (unless it cannot be removed, then it is empty), all other files are as they were. Options that contradict each other and certificates that cannot be loaded are noticed before any file is touched; other problems (rules files, -minphase, listening) afterwards. Whether the start succeeds does not depend on what is in these files.", "quantifier": "all options, all contents of the disk, all errors of opening, creating and removing files", "why_tests_cant": "A file lost at start is noticed by a test only if it looks at that file with those options and that error; quantifies over all options and disks", "anchors": ["sinksmtp.go:1289-1298", "sinksmtp.go:1561-1704"]}
{"id": "C105", "title": "Addresses and blocks of IPv6 in rules mean what they say", "statement": "Text is an IP address iff it is a.b.c.d with numbers below 256, or eight groups of hexadecimal digits below 65536 with colons between them, where one :: stands for one or more groups of zeros and the last two groups may be written a.b.c.d; it is a block iff it is such an address, a slash and a number up to 32 or 128. Every text has at most one meaning, and every such text can be an argument of `ip` without quotes, in capital or small letters, and no other word can. A client matches `ip PATTERN` iff its address is that of the pattern, or has the same first bits; an IPv4 client a.b.c.d counts as ::ffff:a.b.c.d, but is in no block of IPv6 addresses with a length below 96. The text of an address stands for this address again. Hence with `reject ip PATTERN` as only rule every session of a client in the pattern is closed on connecting without any reply, and every other client without a zone is answered as if there were no rule. A client whose address has a zone (link-local) is different: it matches every block, of either kind, and no address.", "quantifier": "all texts, all addresses of both kinds, all blocks, zones, ports, sessions, both versions of the parser; options without generated rules for the sessions", "why_tests_cant": "there are 2^128 addresses and the texts for one address are many; the :: may stand in eight places; a wrong bit at a block boundary or a mix of the two kinds is met by few of them", "anchors": ["rules.go:370-387", "rparse.go:185-195", "sinksmtp.go:883-888", "conncfg.go:29-52"]}
{"id": "C106", "title": "EHLO names that are IP addresses", "statement": "`helo-has bareip` is true iff the EHLO name is the text of an IP address (of either kind), `properip` iff it is one in square brackets; never both. `remip` is true iff the name, bare or in brackets, is the client's address as Go writes it (for IPv6 the one text with small letters, no leading zeros and :: for the first longest run of two or more zero groups), `myip` iff it is the server's and this is another address, `otherip` iff it is any other text of an address. For names a.b.c.d and a parser without leading zeros this is what the manual says: the client's address, the server's, neither. Otherwise it is not: a client that spells its own IPv6 address in another way (capitals, zeros) is `otherip`. `[IPv6:...]`, the form of RFC 5321, is none of the five. A client whose address has a zone (link-local) is never `remip`, and none of its host names is ever verified: it is `dns nodns` whatever the DNS says.", "quantifier": "all EHLO names, all addresses of client and server of both kinds, both versions of the parser, any DNS", "why_tests_cant": "one address has many spellings, and a test uses the one that the author thought of; quantifies over all names and addresses", "anchors": ["rules.go:180-223", "rdns.go:20-50", "doc.go:630-657", "mxresolve.go:67-71"]}
{"id": "C107", "title": "What the errors of rules files say is so", "statement": "When a rules text is refused, the message is about a word of the text, after complete statements and the first words of the next one, and its text makes a claim about these words that holds: that something is expected of which the word found is no instance (an argument, an option of the family, a domain, an address, a match operation, a closing parenthesis, a with option, an action, the end of the line), and it quotes this word or says that it is the end of the line or file; that an operand, a parenthesis, a with clause or the operations of a rule are empty; that a with option is repeated, not allowed, or has a newline in it; that a set-with clause has no options; that the phase is earlier than the operations of the rule allow; that a file cannot be included, and why. The manual's example `reject from A to B or C` is no rule: every file with such a line is refused, naming C.", "quantifier": "all texts, libraries and include results", "why_tests_cant": "There are some thirty messages, most of them made in places reached through nested parser calls after any number of words; tests look at a few texts of wrong rules and seldom at whether the message is right for every other text that leads to it.", "anchors": ["rparse.go:87-116", "rparse.go:119-225", "rparse.go:286-301", "rparse.go:414-444", "rparse.go:480-544", "rparse.go:563-670", "doc.go:306-320"]}
{"id": "C108", "title": "LOCAL in a connection parameter file means what it says", "statement": "With a -conncfg file, a connection that the server takes over TCP on PORT of its address IP has, at every moment, the name and the certificates of the first line of the file whose LOCAL speaks of it, and those of the command line if there is no such line, no file, or an error in the file. LOCAL speaks of it iff LOCAL is `*`, or an address equal to IP or a block with IP in any spelling, or exactly the text that Go writes for IP and PORT (a.b.c.d:PORT, or [IPv6]:PORT with the shortest form of the address). So LOCAL with a port speaks of this port of this address and of nothing else; another spelling of the same two (a port with leading zeros, an IPv6 address with more zeros, brackets around an IPv4 address) and any other text (`*:25`, a host name) speaks of no connection. On an address with a zone (link-local) it is otherwise: there the first line counts whose LOCAL is anything but a plain address, whatever it is. The settings are determined by these.", "quantifier": "all texts of files, LOCALs, addresses of both kinds, ports, zones, sessions, both versions of the address parser", "why_tests_cant": "one address has many spellings and a file has many lines; a test uses a few LOCALs in the spelling that works and never a link-local address", "anchors": ["conncfg.go:27-49", "conncfg.go:55-120", "sinksmtp.go:883-888", "sinksmtp.go:936-968", "doc.go:216-250"]}
{"id": "C109", "title": "A server run from the command line alone does what its options say", "statement": "Take a server without rules files and a client that is not stalled. Nobody is refused on connecting. A greeting is refused iff the standard rules are on and it has no name. A MAIL FROM with an address is refused iff the last greeting has no name or the address is malformed (both only with the standard rules), the address matches a line of the -fromreject file, or the last greeting matches a line of the -heloreject file; MAIL FROM:<> is never refused, but if one of these applies to it every RCPT TO that follows is. After an accepted MAIL FROM with an address a recipient is refused iff it is malformed (with the standard rules) or the -toaccept file has lines and the recipient matches none of them. After an accepted recipient DATA is accepted, and the message is refused iff there is -M. Refusals are 5xx with the standard texts; everything else is accepted, or the session ends because of too many RSETs. Without any of these options everything is accepted. Lines are trimmed and in any case; comments, blank lines and a last line without its end do not count; a file that is missing or has no lines is as if the option were not given. While the files change, a connection keeps to the content that it read first. The same follows from any way to write the options on the command line, for each of the concurrent sessions of the program.", "quantifier": "all command lines without -r, contents of the three files, sequences of commands, interleavings of sessions; names of files without white space, commas, parentheses and semicolons", "why_tests_cant": "exact (if and only if) answers to every command of every session for all combinations of five options and all texts of three files", "anchors": ["sinksmtp.go:88-131", "sinksmtp.go:166-189", "sinksmtp.go:768-852", "sinksmtp.go:1301-1348", "sinksmtp.go:1516-1520", "rules.go:415-536", "doc.go:123-146", "doc.go:754-775"]}
{"id": "C110", "title": "Numbers and durations on the command line mean what they say", "statement": "-dncount takes exactly the whole numbers of Go programs that fit in 64 bits with a sign: decimal without a leading zero, or after 0, 0o, 0b, 0x in base 8, 8, 2, 16, with an optional sign and underscores only between digits (so 010 is eight and 08 ends the program). -dndur takes exactly 0 and sums of numbers of h, m, s, ms, us (either micro sign) and ns, with an optional sign, that fit in 64 bits of nanoseconds; a number without a unit ends the program unless it is 0. Numbers written as usual mean themselves, alone and with any unit. A server that was started counts connections up to the -dncount given last (zero if none is given) and remembers them for the -dndur given last (eight hours if none is given), and if it counts at all this time is a second at least.", "quantifier": "all texts and command lines; digits after a point may come to any amount (the library computes it with floating point numbers)", "why_tests_cant": "an exact grammar with values at the limits of 64 bits; a test tries a few texts", "anchors": ["sinksmtp.go:1550-1551", "sinksmtp.go:1580-1588", "doc.go:84-96"]}
{"id": "C111", "title": "A rules file of DNS blocklists keeps out the listed clients, and nobody else", "statement": "Let the rules file consist of lines `reject dnsbl ZONE`, and let there be no options with rules. For a client w.x.y.v the name asked is v.y.x.w.ZONE with a dot at its end (added unless ZONE ends in one), and the client is listed iff this name has an address. A listed client is dropped when it connects and is never told anything; every other client is let in and everything it says is accepted (unless it is dropped after too many RSETs). A client whose address has not exactly three dots, as IPv6 addresses, is never listed. With -smtplog the log gets two lines for a dropped client, one with the first zone of the file that lists it and one with its address; only this zone is counted, and only for the SBL of Spamhaus more is logged. This while the DNS answers about addresses of names stay the same; all else may change at any time.", "quantifier": "all lists of zones, client addresses, sessions, DNS contents; zones that are plain words with a dot", "why_tests_cant": "the answers to all clients of all addresses; a test asks a live blocklist about one address or never does", "anchors": ["rnodes.go:290-314", "rules.go:81-106", "rparse.go:158-176", "sinksmtp.go:707-736", "sinksmtp.go:1019-1040", "doc.go:469"]}
{"id": "C112", "title": "A rules file of domain blocklists refuses the listed names, when they are known", "statement": "Let the rules file consist of lines `reject dbl SOURCES ZONE` with one or more of host, helo, ehlo, from and any, separated by commas, as SOURCES, and let there be no options with rules; let the DNS not change during the connection. A name is listed in ZONE iff NAME.ZONE has an address, with a dot at the end (added unless ZONE ends in one). The names of host are all reverse DNS names of the client, verified or not, less the dot; that of helo and ehlo is the last EHLO or HELO name if it is not empty; that of from is the domain of the last sender if the address is well formed; any has all of these. A client is dropped on connect iff a line with host alone lists one of its names. Later each command is refused iff one of the lines whose sources are all known by then (host at once, helo and ehlo from EHLO on, from and any from MAIL FROM on) lists a name of one of its sources; all else is accepted (unless the client is dropped after too many RSETs). MAIL FROM:<> is always accepted, but after it recipients are refused by the same condition.", "quantifier": "all lists of lines, sessions, names, DNS contents that do not change; zones that are plain words with a dot", "why_tests_cant": "exact answers for all sequences of commands and all DNS contents; a test asks about one name", "anchors": ["rnodes.go:434-497", "rparse.go:216-225", "rparse.go:389-405", "rules.go:81-106", "rules.go:415-536", "doc.go:472-479"]}
{"id": "C113", "title": "Rules files put end to end are as the files one after the other", "statement": "If a rules text is in order and is made of complete lines (it is empty, or ends in a newline that is not behind a backslash), then the text followed by any other text is in order iff the other text is, and gives the rules of the first followed by the rules of the second; the files included by the second are read after those included by the first. So while files do not change, giving two files with -r one after the other makes no difference to any connection (its rules, its answers, everything it does later) compared with giving one file that has the text of both; also when the second is broken. Both conditions are needed: a continued last line, or one without an end, runs on into the next file; and a quote left open in the first file may be closed by the second.", "quantifier": "all texts, include files, options before and after, sessions; the connection part for files that do not change while they are read", "why_tests_cant": "all pairs of texts and all later behaviour; a test joins two files", "anchors": ["rlex.go:325-371", "rlex.go:393-427", "rlex.go:521-587", "rparse.go:655-720", "sinksmtp.go:135-189", "doc.go:252-275"]}
{"id": "C114", "title": "What a rules file about looks does", "statement": "If the only rules are a file of lines `reject from-has AATTRS`, `reject helo-has HATTRS` and `reject dns DATTRS`, then a client is dropped when it connects exactly if its reverse DNS names are of a kind in a dns line (none verified, some verified, some without forward lookup, some inconsistent, all good). EHLO or HELO is refused exactly if moreover the greeting (the command, the name, the IP address it stands for) is of a kind in a helo-has line; MAIL FROM exactly if moreover the sender address or the MX and A records of its domain are of a kind in a from-has line; recipients, DATA and messages exactly if the last greeting or the last sender are. MAIL FROM:<> is not refused, but then every recipient is. Everything else gets a plain yes (unless the session ends in the middle of a message).", "quantifier": "all files of such lines, each with one or more words; all reverse DNS and domain lookups that do not change over time; all sessions that do not stall", "why_tests_cant": "all combinations of 25 words with all addresses, greetings and lookup results; a test has a few", "anchors": ["rules.go:180-284", "rules.go:415-536", "rparse.go:230-300", "sinksmtp.go:768-852", "sinksmtp.go:871-1235", "doc.go:480-500", "doc.go:560-657"]}
{"id": "C115", "title": "A connection in a changing world is one in a world that stands still", "statement": "Let pattern files, MX records and the names of addresses change at any time while a connection lives, but let the addresses of names and the SBL records stay, and also the file of connection parameters and the names of the local address where they are used. Then there is a world in which nothing changes at all, in which every question the connection asked has the answer the connection got, and in which the whole life of the connection (every state, reply, log line, file, counter and question) is possible just the same. So each property of connections in unchanging worlds holds of connections in changing ones, e.g. that with rules that only refuse a message is accepted once its sender and a recipient are; that without rules files messages are refused exactly with -M; that a message handed over has passed the rules at every stage.", "quantifier": "all configurations, worlds with such changes, connections of any length and every state of the shared tables", "why_tests_cant": "changes at every moment of every connection; a test changes a file once", "anchors": ["rules.go:54-106", "rules.go:108-178", "sinksmtp.go:109-131", "sinksmtp.go:871-1235", "rdns.go:20-60", "conncfg.go"]}
{"id": "C116", "title": "The cipher named in a record is the cipher", "statement": "Every cipher in the table of names except number 0 has a name PROTOCOL:NAME:BITS whose parts agree: the bits are those of the key that NAME tells (AES128, RC4, IDEA, SEED: 128; triple DES: 168; AES256, CHACHA20: 256), a cipher with GCM, CCM, SHA384 or CHACHA20 is not said to be of a protocol before TLS 1.2, and the TLS 1.3 names are exactly those of numbers 0x13xx. No two numbers have the same NAME, so a name in a record determines the number; the table has each number once, so it does not matter in what order it is searched.", "quantifier": "all 65536 cipher numbers", "why_tests_cant": "the table has over a hundred entries typed in by a script; a test connects with one or two ciphers", "anchors": ["tlsnames.go:14-124", "sinksmtp.go:566-582"]}
{"id": "C117", "title": "An include line is as the text of the file", "statement": "While files do not change: wherever a rules text with a line `include FILE` (the name plain or quoted) is in order, the text with the lines of FILE in place of that line is in order too and has the same rules in the same order; and the other way, when FILE is in order and can be opened beside the others. So a rules file with an include line, and one with the text in its place, make no difference to any connection. The text before the include line must be in order by itself, and it and FILE must be made of complete lines; each condition is needed, and putting the text in can make rules load that did not load before, since an include takes a file descriptor of its own.", "quantifier": "all texts before and after, all included files (with includes of their own), all numbers of free descriptors, other rules files, sessions; files that do not change while they are read", "why_tests_cant": "all texts, nestings and all later behaviour; a test has one file included in another", "anchors": ["rparse.go:652-695", "rlex.go:393-427", "sinksmtp.go:135-189", "doc.go:252-275"]}
{"id": "C118", "title": "What a connection has asked it does not ask again, except DNS blocklists", "statement": "In one connection, however long it is and whatever the client sends: each file is opened at most once for the rules (and once more if it is the file of connection parameters), the mail exchangers of each domain are looked up at most once (a temporary failure too is kept for the rest of the connection), and the names of each address are looked up at most once (and once more for the address of the server if its name was not given). For DNS blocklists this is not so: a name that is not listed is an error of the lookup, which is not kept, so it is asked again for every command; a client that goes on greeting can cause any number of such lookups.", "quantifier": "all rules, options, worlds (changing or not), sessions of any length", "why_tests_cant": "all sessions; a test counts the lookups of one", "anchors": ["rules.go:76-121", "rules.go:131-180", "rdns.go:17-55", "mxresolve.go:60-130", "sinksmtp.go:935-1010"]}
{"id": "C119", "title": "A message sent again and again is saved once", "statement": "In any run of the server no file is made twice, and each file made is made for a message that arrived before under that name. So with -save-hash full, if every message that arrives is the same as one of n messages (same data, sender, recipients, HELO name, addresses, names, TLS information and directory; other ports, times and connections), at most n files are made, however often the messages are sent, in however many connections at once, and whatever calls fail. With -save-hash msg the same holds with n pairs of a message text and a directory.", "quantifier": "all configurations, runs of the server with any number of connections in any order, failures of system calls, hash functions", "why_tests_cant": "all interleavings of connections; a test sends a message twice in a row", "anchors": ["sinksmtp.go:640-700", "doc.go:197-215"]}
{"id": "C120", "title": "With -save-hash all names are unique, with the exceptions the manual tells", "statement": "In a run of the whole program the records of messages of two connections are different whatever the clients send and whenever, because each begins with the number of its connection. So with -save-hash all (the default) they go to different files if the hash differs for different records. And from when a message that was to be saved is accepted, its file holds exactly its record, whatever happens later and in other connections, if that file was not there when the program started and no call to write or close it failed. Two messages share a file only as the manual says: if they came over the same connection in the same second; then they are copies, with the same sender, recipients and data. (And that is possible.)", "quantifier": "all configurations, command lines, runs of the program with any number of listeners and connections; hash functions without collisions among the records of the run", "why_tests_cant": "all interleavings and all messages; a test sends two messages that are different anyway", "anchors": ["sinksmtp.go:548-600", "sinksmtp.go:640-700", "sinksmtp.go:876-890", "sinksmtp.go:1706-1716", "doc.go:197-215"]}
{"id": "C121", "title": "The message log of the server tells what file names do not", "statement": "With -l, in any run of the server with any connections, the message log has exactly one line for each message received, in the order in which the messages came in, and each line can be read back: the sender and the recipients accepted for that message, its size and hashes, the client, the EHLO name and the TLS numbers. So with -save-hash msg, where messages of different senders share a file, the log has for every message that was to be saved a line with the name of its file, its sender and its recipients, as the manual says.", "quantifier": "all configurations with -l, runs of the server with any number of connections in any order; accepted addresses without >", "why_tests_cant": "all interleavings of connections and all messages; a test reads one line", "anchors": ["sinksmtp.go:600-660", "sinksmtp.go:1141-1164", "doc.go:200-203"]}
{"id": "C122", "title": "When a rule acts is a matter of all its parts", "statement": "Let the first rules file hold one of the manual's last examples, with any address words in place of its own, and let the other files hold any rules. `@data reject to J` refuses DATA exactly if one of the accepted recipients is J, and nothing else. `reject from-has A or to-has B` refuses nothing before RCPT TO, a sender with A included, whose MAIL FROM is answered by the other rules; then it refuses each recipient if the sender has A, and otherwise those that have B; DATA and messages if there is such an accepted recipient. The two lines `reject from-has A` and `reject to-has B` refuse the MAIL FROM of such a sender at once and everything after it. All else is answered as if the lines were not there; only the deferred refusal of a null sender comes before.", "quantifier": "all lists of address words and patterns, rules in further files, environments with a static world, and conversations", "why_tests_cant": "What a rule looks at decides when it is looked at; a test shows one conversation, while here the two ways of writing it are compared for all words, all other rules and all that was said before.", "anchors": ["doc.go:725-746", "rules.go:415-536", "rparse.go:231-300", "sinksmtp.go:768-852"]}
{"id": "C123", "title": "One file can hold all the rules of a server", "statement": "While files do not change, a server with options that make rules (the standard ones, -M, -fromreject, -toaccept, -heloreject) serves exactly the same connections, answer by answer, as one without these options that has the text made from them in a rules file before its others. And if all its rules, from options, rules files and included files, are printed by Rule.String, one to a line, into one file, and they are such as can be printed (plain arguments, with values without quotes and backslashes), then a server with this file only and none of these options serves exactly the same connections.", "quantifier": "all options, rules files, include files, environments and conversations; rules whose arguments and values are plain for the second part", "why_tests_cant": "That printing, reading, including and the options fit together is a statement about all rules; tests compare a few servers.", "anchors": ["sinksmtp.go:105-189", "sinksmtp.go:1301-1362", "rnodes.go: Rule.String", "rparse.go:600-720", "doc.go:748-775"]}
{"id": "C124", "title": "Rules can be sorted by phases", "statement": "What rules say in a phase is said by the section of this phase: the rules checked in it, in their order, each with the phase written in front. Two lists of rules with the same sections give the same ruling on every command after everything that was said, deferred refusals of null senders included; so a rule without a phase is the same as its copies for every phase from the first in which it can be checked, and rules with different phases may change places. A server that is given all rules of another, from options, files and included files, sorted into sections @connect, @helo, @from, @to, @data and @message and printed into one file, answers every connection and command by the rules of the other.", "quantifier": "all lists of rules, environments and histories; static worlds and rules that can be printed for the statement about servers", "why_tests_cant": "That the phases do not interfere is a statement about all pairs of rules and phases and all conversations.", "anchors": ["rules.go:415-536", "rnodes.go: Rule.String", "sinksmtp.go:768-852", "doc.go: phases"]}
