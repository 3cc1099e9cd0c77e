# property -> (status or None = automatic, note)
NOTES = {
'C01': (None, 'Every input is lexed without panic into a list of tokens of which exactly the last is EOF or error.'),
'C02': (None, 'Any byte string written with the escaping function of Spec/Lex.lean lexes to exactly one value token with that value.'),
'C03': (None, 'Token positions tile the input; the text at the position is the token text; lineInfo is the line/column of that position.'),
'C04': (None, 'Comment lines, blank lines, leading blanks and continuations do not change the token sequence, at file start and after any complete line.'),
'C05': (None, 'Parse and loadRules return rules or an error for every text, file system behaviour and descriptor limit; the loop bounds of the model are never hit.'),
'C06': (None, 'Expression parser and whole-file parser accept exactly the grammar of Spec/Grammar.lean with the same trees (both directions); the grammar is unambiguous; only token types and values matter.'),
'C07': (None, 'requires is the latest phase needed by any operator, at most RCPT TO, and not after the explicit phase; a rule whose explicit phase is too early makes the parse fail.'),
'C08': (None, 'For all rules of all successful parses, including included files.'),
'C10': (None, 'loadRules succeeds with rs iff the recursive expansion of includes gives rs; splicing, failure of bad includes and trailing tokens, monotonicity in free descriptors, failure of include cycles.'),
'C12': (None, 'matchAddress never panics and decides exactly the relation AddrMatch of Spec/Match.lean, for every library lower-casing; special cases spelled out.'),
'C13': (None, 'matchHost on non-empty names and patterns decides exactly HostMatch; trailing dots of reverse DNS names do not matter.'),
'C14': (None, 'For a client address net.ParseIP accepts. Without that hypothesis everything that is not a plain address matches (C14_invalid_client_matches_everything).'),
'C15': (None, 'For subjects, literal patterns of every operator, and pattern files.'),
'C16': (None, 'All newline-terminated lines are handled as stated; the part "a final line without newline should also count" is false of the code and its negation is proved (C16_last_line_lost).'),
'C50': (None, 'World held fixed during the lookup.'),
'C51': (None, 'Complete characterisation of valid/unknown/bad verdicts in a fixed world, order independence; bogus MX in any world.'),
'C52': (None, 'checkIP reports good iff there is an address and all are public; public spelled out numerically for IPv4 and IPv6.'),
'C17': (None, 'Every expression tree, in a static world with consistent caches; C17_boolean says the value of a tree is the Boolean function of the values of its operators.'),
'C18': (None, 'In any, also changing, world: a rule whose evaluation comes to consult an empty pattern source sets the miss mark, and a marked rule is skipped; C18_static ties consulting to the declarative Misses.'),
'C21': (None, 'Parsed rules, any world, any context; the resulting context is also unchanged apart from the fields not yet known.'),
'C22': (None, 'Static world, all parsed rule lists, all contexts reached by decisions; the only exception is the null sender deferral, spelled out in the statement. FirstMatch.unique shows the outcome is determined.'),
'C23': (None, 'Same setting as C22, for each with option separately.'),
'C24': (None, 'Any world, any context; the whole context after the decision is the same apart from the rule list itself.'),
'C25': (None, 'C25_null_sender: any world, any context, any rules. On the connection MAIL FROM:<> is answered positively (C25_reply) unless do-nothing detection ends the session, which needs -dncount (C25_reset, with an example).'),
'C26': (None, 'C26_sticks in any world, C26_rules states the refusal and its options by the declarative first match, C26_cleared the clearing.'),
'C27': (None, 'C27_each_recipient in a static world; C27_leftover in any world.'),
'C28': (None, "Mutual exclusion and meaning of every attribute proved. The manual's list for 'bad' differs from the code (route instead of quoted): C28_bad_partial proves what the code does, C28_bad_differs that it is not the documented list."),
'C29': (None, 'The IP attributes need known client and server addresses: C29_unknown_client shows the attribute is wrong otherwise.'),
'C30': (None, 'All reverse DNS results.'),
'C31': (None, 'Static world for C31_source; literal and file arguments.'),
'C32': (None, 'C32_only_named_sources in any world: every name looked up by dbl comes from a named source.'),
'C19': (None, 'Any world, any history of decisions on any transaction data: at most one open per file, and the whole run equals the run in a world with constant file contents.'),
'C20': (None, 'Any world. Failed lookups are not cached by the code, so only definite answers stick.'),
'C09': (None, 'Exact condition on with values (the text stands for itself between quotes) and on words; whole files too; C09_not_all shows why a restriction is needed (Rule.String does not quote).'),
'C11': (None, 'buildRules and genStallRules for every combination of options and all clean file names; needs no assumption about the file system. C11_any_names: for all other names too, the standard rules and that of -M come first.'),
'C33': (None, 'Any configuration, rules, world, client and interleaving with other sessions (shared tables arbitrary before every step): the session record is the fold of the accepted commands, and every decision sees the greeting, sender and recipients so recorded.'),
'C34': (None, 'Any run of a session: the directory used is the one set by the most recent decision with a savedir, else -d.'),
'C35': (None, 'Any rule files, any client, and whatever file names are given to the other options: C11_any_names shows that nothing pasted into the generated text can get before the rule of -M.'),
'C36': (None, 'Any rule files, any client. A connection reads each pattern file once; the theorems speak about the contents at that time. File names given to -fromreject, -toaccept and -heloreject must not contain blanks, commas, parentheses, semicolons or newlines: the code pastes them into rule text.'),
'C60': (None, 'Any run of a session, in terms of the replies given to the events of the client.'),
'C37': (None, 'Any run of a session whose rule files cannot be loaded: every refusal is temporary, nothing is accepted, and the client is not counted.'),
'C38': (None, 'Any run of the server with any number of interleaved connections. Stalling also needs -smtplog, as the comment in the code says.'),
'C39': (None, 'False as stated: make-yakker is forgotten when a later decision is made without it (C39_not_always). The partial theorem covers the sessions where no decision follows the marking one; C39_exactly_partial shows that these are exactly the sessions whose client is marked: the record is set to the limit at the end iff the last decision said make-yakker.'),
'C40': (None, 'False as stated: an abandoned transaction (MAIL FROM after MAIL FROM) that reaches the limit is never reported (C40_not_always). The partial theorems say exactly when a report is made, and that none is made twice in a row of useless sessions.'),
'C41': (None, 'Any run of the server with any number of interleaved connections; the later effect of rules on TLS is C41_rules.'),
'C43': (None, 'in all interleavings of all connections, with all storage failures; a crash is a run that stops anywhere, and C43_initial covers the run after it, whatever files it finds'),
'C44': (None, 'C44_all and C44_full_hash say which data is hashed; C44_distinct says that the hashed data differs whenever sender, recipients or message differ'),
'C45': (None, 'C45_certificate shows the condition on certificate names to be needed'),
'C46': (None, 'C46_log_line the line, C46_count the number of lines'),
'C61': (None, ''),
'C42': (None, 'false as stated, see C42_not_always (a failed write is only reported) C42_retry (a file already there counts as stored) and C42_early (even if nothing has been written to it yet); the partial theorems say what holds: C42_all_partial, C42_full_partial and C42_msg_partial what the file of an accepted message holds with each kind of name'),
'C62': (None, ''),
'C48': (None, 'Proved for local addresses that are plain IP addresses: first covering line, settings of the connection for its whole life, warning exactly for a broken file, no TLS without certificates. Missing: a local address with an IPv6 zone does not parse and then matches the first LOCAL that is not a plain IP (C48_unparsable).'),
'C49': (None, 'An exact characterisation of accepted files in terms of their newline-terminated lines. Missing: an unterminated last line is dropped without any check (C49_last_line_lost, C49_not_all).'),
'C54': (None, 'Instruction-level interleavings of any number of goroutines: every execution has a linear order of atomic effects consistent with calls and returns (C54_atomic), which give the counts (C54_count, C54_adds); C54_steps ties the effects to the one-step operations the session model uses. The scheduler, the Go memory model below the mutex and time going backwards are not modelled.'),
'C57': (None, 'Instruction-level interleavings; counters are uint64 and wrap, as in the code.'),
'C56': (None, 'Small-step model of the callers, the unbuffered channel and the backend; all interleavings. C56_flush is what main relies on before it exits.'),
'C58': (None, 'bufio.Writer is modelled from memory of the Go library, whose source was not at hand; the file either writes everything or reports an error. Note that smtpLogger.Write returns more than len(b), which io.Writer does not allow.'),
'C59': (None, 'Exact characterisation of when main starts to accept connections, the settings it then uses, and the consequence for whole connection lives (C59_safe). flag.Parse is not modelled.'),
'C55': (None, 'The parser is any deterministic receiver (a predicate on the items received so far saying whether it reads on), so the result covers every point at which parsing can stop; every schedule of the two goroutines.'),
'C53': (None, 'False in general (C53_not_all): append may write into spare capacity of the array of the base rules, which all connections share, e.g. with the three standard rules. Proved when no two connections load different rules into those places, and unconditionally when there are none (C53_no_spare).'),
'C47': (None, 'False in general: the theorems C47_empty_helo, C47_empty_pattern, C47_note_without_log, C47_sbl_ipv6, C47_empty_name and C47_empty_client_name are crashes of the whole server. Proved (C47_partial, C47_server_partial) under the conditions in Prudent, which exclude exactly these cases: with the standard rules, no empty patterns, a log if notes are used and no empty reverse DNS names no event sequence panics. Panics inside the smtpd library, the Go runtime and deliberate die() at start-up are not modelled.'),
'C63': (None, 'C63_step per step, C63_total for the life of a connection (at every prefix the answers given are the requests made, less one while a message is dealt with), C63_in_turn, C63_soon (five steps, whatever the file system does) and C63_end.'),
'C64': (None, 'C64_decision gives the whole answer as a function of the decision, the message option, the ID and the recipients; C64_connect, C64_lost and C64_id for connecting, lost messages and the ID.'),
'C65': (None, 'C65_step says what makes each counter go up in a step, in terms of the history of the session; C65_start for the start of a session; C65_server sums up over all interleavings; C65_laws relates the numbers. The reports about do-nothing clients (yakads, yakforces) are in C40.'),
'C66': (None, 'C66_step gives the exact lines and counts per step in terms of the history (hits to the left, SBL records to the right); C66_counts the statistics over a whole connection; C66_hits ties hits and errors to the decision and their order; C66_dnlog what is written to -dnlog; C66_off and C66_start the rest.'),
'C67': (None, 'The name of the file must be a clean name (no white space, quotes or separators), as for C36. A rule at MAIL FROM does not apply to the null sender in the code, so there the recipients are refused instead.'),
'C68': (None, 'Refused means rejected or, for stalled clients, deferred. Malformed is written without the model (Spec.Sem).'),
'C69': (None, 'Small-step model of the listeners, the unbuffered channel and the loop in main. C69_served is possibility under any schedule so far (nothing but main has to move), not fairness of the Go scheduler.'),
'C70': (None, 'expvar operations are atomic, as the package documents. C70_not_latest: when calls overlap the time shown need not be the latest one even after all have finished (a get-then-create race), which is why C70_shown is about calls that do not overlap.'),
'C71': (None, 'A two-run property: C71_isolated builds the run without the others. The global statistics counters are not part of what clients see. C71_all discharges the condition on file names for -save-hash all when connections have different log prefixes and the hash does not collide.'),
'C72': (None, 'C72_rules for the rules of a connection; C72_priority and C72_otherwise for Decide on the concatenation of two rule lists.'),
'C73': (None, 'The reader (Spec/Meta.lean) knows the format only. Certificate names and server names with quotes or newlines would be ambiguous (C45_certificate shows the newline case), so they are excluded. What the DNS lists contain is C50.'),
'C74': (None, 'What is offered at the setup is C41; here what becomes of it.'),
'C75': (None, 'Upper bound on what is asked: C75_decision, C75_step, C75_life. That pattern files are read at most once is C19_once, that known DNS answers are not asked for again is C20_sticky.'),
'C76': (None, 'Spec/Answers.lean is the specification: what has been said, first match, delayed refusal, no context. World fixed (World.Static); for changing worlds see C19_snapshot and C20.'),
'C77': (None, 'Stated for rules in the sense of C76 (C77_trim for single rulings, C77_answers for connections).'),
'C78': (None, 'Assumes that addresses, hashes and the like made by the library are single words (WordEnv), the time has no "[" and the ID no "]". C78_ambiguous: the condition that addresses contain no ">" is needed.'),
'C79': (None, 'The fault can be before the place named, but in the same statement (example: a rule without operation is reported at its end).'),
'C80': (None, 'C80_rules (warning about rules files), C80_conn and C80_conn_error (iff characterisation of the complaint about a connection parameter file), C80_steps (nothing later). What the library says about an unreadable file or a bad key pair is an oracle text; a read error in the middle of a connection parameter file is reported as such although the program may report a wrong line before it first.'),
'C81': (None, 'A limit of exactly 0. An example shows that a negative -dncount, which is not refused at the start, is different.'),
'C82': (None, 'C82_consistent and C82_total are about single accesses under the mutex, C82_server about whole operations. Unbounded integers.'),
'C83': (None, 'Meaning of the counters as in C65. accepted/messages counts messages received, also those rejected afterwards (example). connections, the address tables and the times are in C69, C82 and C70.'),
'C84': (None, 'C84_rules_differ: rules files are different (the carriage return becomes part of a word). space_table checks the table of white space against code points.'),
'C85': (None, 'Equivalence is over all worlds, facts and phases, from any options set before, so it is a congruence (C85_exchange). C85_or_comm and C85_and_order exclude pattern files because of C85_file_order; C85_source is for ASCII patterns since lower-casing of other text is not modelled.'),
'C86': (None, 'C86_answers: for any run of a connection in a world whose files, MX, PTR and TXT answers change arbitrarily with time, there is one static world that agrees with every answer the connection got when it asked (Spec.Snapshot), and all replies and the connect decision are those of C76 (Ruling, FirstMatch) in that world. Assumed: A/AAAA answers of names do not change (two domains may share a mail exchanger, which is then asked for twice; a blocklist name without an answer is asked for again in the next phase, rules.go:81-95). C86_addresses_needed: without that supposition the claim is false; a connection in which the address of a shared mail exchanger goes away answers like no single state of the DNS (witness session run through the model).'),
'C87': (None, 'C87_accept, C87_refuse, C87_refused, C87_set are about Ruling, which by C76_answers and C86_answers gives every reply of every connection; C87_ruling says there is a ruling on every command, C87_connect is the decision on connecting. When accept rules lift the refusal of a null sender, a later command may get another refusal of its own.'),
'C88': (None, 'C88_ruling for the rulings (which by C76 and C86 give every reply), C88_answers for the words of the replies on one or two connections of a client, C88_order for permuted and repeated recipients; an example shows that with different options per clause the order does matter to the options. Exception: the drop after too many RSETs.'),
'C89': (None, 'C89_addresses and C89_blocks are exact for text without a colon (IPv6 text stays an oracle). C89_client is what matchIp does for such a client; C89_means is the same for LOCAL in -conncfg, which C48 states with IpMatch; C89_whole_numbers spells out /0, /8, /16, /24, /32. C89_allowed ties it to the rule grammar of C06. C89_zeros is about the comment at rules.go:372-376, which is no longer true from Go 1.17 on. C89_private checks the three constants that C52 uses. C89_rule (Props/IpRule) shows that every such text can be written in a rule. The parsers are those of package net, transcribed from memory of its source, as the sandbox has no Go.'),
'C90': (None, 'Exact characterisation of SplitHostPort; the host part of any TCP address; and what `reject ip PATTERN` does to whole sessions of IPv4 clients over TCP. The text of an IPv6 address is any text without brackets.'),
'C91': (None, 'When a connection is counted is exact (C91_counted). That it could have used TLS is false with -conncfg (C91_not_always): failures on an address with certificates count against a connection to one without. C91_partial proves it without -conncfg.'),
'C92': (None, 'The order of commands is the hypothesis Orderly, what smtpd guarantees. C92_complete finds the accepted commands, C92_passed says that the rules passed each, C92_kept that only messages are stored; C92_stalled, C92_broken, C92_closed, C92_options, C92_std draw the conclusions. An example shows that Orderly is needed.'),
'C93': (None, 'C93_origin needs no assumption about the order of commands; C93_passed, C93_welcome, C93_read and C93_unchanged have the hypothesis Orderly for each connection, an assumption about smtpd as in C92. Contents are a prefix of the record because writing or closing may fail (C42).'),
'C94': (None, 'What the library then does with the delay and the configuration is outside the model. C94_name is for local addresses that are plain IP addresses, as C48.'),
 'C95': (None, 'Which calls are made; what becomes of them when several connections make them at once is C70.'),
'C96': (None, 'flag.Parse is modelled from memory of package flag; strconv.ParseInt and time.ParseDuration are parameters.'),
'C97': (None, 'From the text of the file to the answers. Hypotheses: no other rules (-nostdrules, no options), the client is not stalled as a do-nothing client, and addresses (A, AAAA) of names stay; the statement itself looks nothing up.'),
'C98': (None, 'The manual says that with reject and stall rules only a refusal later than the phase a rule normally is checked in cannot come up. Exceptions found: stall rules about the client (nothing happens when it connects, so the greeting is refused) and null senders; both are in the statement.'),
'C99': (None, 'What the smtpd library writes to the log (commands and replies) is not in the repository; that its records are lines not beginning with a digit is a hypothesis.'),
'C100': (None, 'One clock for listeners, sessions and recordings. The theorem about times has the condition that nobody is recording; C70_not_latest shows that without exclusion of overlaps the latest time need not be the one shown.'),
'C101': (None, 'Props/Manual. The rules of the command line must be empty (-nostdrules, no lists), so that the example comes first. DNS and pattern files do not change (World.Static). AsIf refers to the rulings of C76 for the other rules; C101_liar and C101_dnsbl contradict the manual.'),
'C102': (None, 'From the command line to every step of every connection. C102_careless is a program, started with -nostdrules and a rule about the EHLO name, that its first client can end. Not covered: panics inside smtpd or the Go runtime, and running out of memory.'),
'C103': (None, 'C103_escape is the disagreement with the manual (as C39). With rules in files only the first line of the first file is looked at; rules made from options come before it and are shown to say nothing to EHLO with a name.'),
'C104': (None, 'Files are names with contents; links and other programs are not modelled (a symbolic link .wecanmake would have its target emptied). C104_testfile_lost shows the exceptions: a file of that name is lost even by a failing start, and a log file of that name is removed while in use.'),
'C105': (None, 'Proved for the library functions as remembered, old and new versions; sessions for options without generated rules and a world that does not change.'),
'C106': (None, 'for the parsers of Model/IpText6; the manual is wrong about other spellings and RFC 5321 literals (theorems C106_other_spelling, C106_rfc)'),
'C107': (None, 'The texts of the messages and what they claim are in Spec/Complaint.lean. Where the lexer reports an error in place of a word the message is the one of the lexer. The place is that of C79.'),
'C108': (None, 'For all connections over TCP: LOCAL as text, with the parsers of net.ParseIP and net.ParseCIDR as modelled for C105 and TCPAddr.String as for C90. C108_settings for addresses without a zone, C108_zone for those with one; together they are about every local address of a TCP connection, except for zones (names of network interfaces) with brackets in them.'),
'C109': (None, 'C109_answers: for every command of a connection, refused iff Unwanted (a predicate on options, file texts, and what the client has said), exact replies in both cases. C109_connect: every client is let in. C109_recipient and C109_message: within a transaction only the recipient counts, and then only -M. C109_open: nothing is refused without options. For clients that are not stalled (those get deferrals, C38) and a static world, as for C76. C109_changing: the same while files and DNS change, in one snapshot of the world (as C86). C109_program: from the arguments of the program to the answers in each of its concurrent sessions. Examples: all options at once.'),
'C110': (None, 'C110_count and C110_duration: strconv.ParseInt(s, 0, 64) and time.ParseDuration, modelled from memory of the library, accept exactly Spec.Count and Spec.Duration with the values given there; C110_allows: these are the values with which flag.Parse goes on; C110_server: settings of a started server from any command line (with C96, C59); C110_usual, C110_unit: usual decimal numbers, numbers without unit. The floating point value of digits after a point is a parameter (any function).'),
'C111': (None, 'C111_listed, C111_unlisted: the answers; C111_name, C111_ipv4, C111_v6: which name is asked; C111_log: the log. Zones are plain words (no quotes, no keyword, not like a file name) with a dot; quoted zones are not treated. The supposition is that address lookups of names do not change during the connection (rules.go:81-95 remembers positive and empty answers but not failures).'),
'C112': (None, 'C112_answers: the answer to every command; C112_connect: dropping. From the text of the file, for a world that does not change (C76).'),
'C113': (None, 'C113_joined: parsing a joined text, for any loader of included files; C113_files: all connections (Life) of the two configurations are the same; C113_conditions_needed: a text for each condition. Steady files are needed only for the connection part, where included files are counted by position.'),
'C114': (None, 'From the text of the file to the answers on the wire. `Looks` says outright what each of the 25 words means; it uses the small specs of addresses, greetings and domains of C28, C30 and C31 only. `to-has` and `tls` lines are left out.'),
'C115': (None, 'The steps are the same in both worlds, including states and traces. What has to stay is listed in Steadfast; C86_addresses_needed shows why addresses have to.'),
'C116': (None, 'The table is finite and checked as a whole; the statements are about every cipher number.'),
'C117': (None, 'C117_inlined is include to text, C117_included is text to include, C117_files is for connections. Files do not change while they are read; the included file and the text before the line are made of complete lines. C117_conditions_needed shows that each condition is needed.'),
'C118': (None, 'C118_files, C118_mx, C118_names are upper bounds for whole connections in any world; C118_again shows that there is no such bound for DNS blocklists.'),
'C119': (None, 'Files are counted by the things that happen to a server: `Makes p e` says that there was no file p before e and there is one after. The condition that the addresses of clients are not empty holds for every TCP connection.'),
'C120': (None, 'The strongest form of C42 for the default kind of names: C120_kept has no exception for other connections any more, only for failed calls, files from before and hash collisions.'),
'C121': (None, 'A list equality, so a line too many, too few or in another order is excluded too. Writing to the log is taken to succeed, as in C46.'),
'C122': (None, 'Proved for any lists of address words in place of `bad`, any pattern in place of jim@example.com and any rules in the further files; that each line gives the rule meant is proved from its text.'),
'C123': (None, 'C123_options needs that rules files stay as they are while they are read; C123_printed does not. Rules with quoted arguments or values that contain quotes do not survive printing (C09_not_all), so they are excluded.'),
'C124': (None, 'External lookups are not compared: sorted rules may be evaluated in another order only across phases, so within a decision the order is the same.'),
}
