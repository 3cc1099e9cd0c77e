{
 "claims": [
  {
   "property": "C01",
   "status": "proved",
   "theorems": [
    "Sink.C01_lex_total"
   ],
   "note": "Every input is lexed without panic into a list of tokens of which exactly the last is EOF or error."
  },
  {
   "property": "C02",
   "status": "proved",
   "theorems": [
    "Sink.C02_quoted_at",
    "Sink.C02_quoted",
    "Sink.C02_quoted_list_aux",
    "Sink.C02_quoted_list"
   ],
   "note": "Any byte string written with the escaping function of Spec/Lex.lean lexes to exactly one value token with that value."
  },
  {
   "property": "C03",
   "status": "proved",
   "theorems": [
    "Sink.C03_tiled",
    "Sink.C03_positions",
    "Sink.C03_text",
    "Sink.C03_lineInfo"
   ],
   "note": "Token positions tile the input; the text at the position is the token text; lineInfo is the line/column of that position."
  },
  {
   "property": "C04",
   "status": "proved",
   "theorems": [
    "Sink.C04_neutral_first",
    "Sink.C04_neutral",
    "Sink.C04_continuation",
    "Sink.C04_continuation_closed"
   ],
   "note": "Comment lines, blank lines, leading blanks and continuations do not change the token sequence, at file start and after any complete line."
  },
  {
   "property": "C05",
   "status": "proved",
   "theorems": [
    "Sink.C05_parse_total",
    "Sink.C05_load_total"
   ],
   "note": "Parse and loadRules return rules or an error for every text, file system behaviour and descriptor limit; the loop bounds of the model are never hit."
  },
  {
   "property": "C06",
   "status": "proved",
   "theorems": [
    "Sink.C06_expr_iff",
    "Sink.C06_expr_unambiguous",
    "Sink.C06_file_iff",
    "Sink.C06_tokens_determine_rules"
   ],
   "note": "Expression parser and whole-file parser accept exactly the grammar of Spec/Grammar.lean with the same trees (both directions); the grammar is unambiguous; only token types and values matter."
  },
  {
   "property": "C07",
   "status": "proved",
   "theorems": [
    "Sink.C07_requires",
    "Sink.C07_too_early_fails"
   ],
   "note": "requires is the latest phase needed by any operator, at most RCPT TO, and not after the explicit phase; a rule whose explicit phase is too early makes the parse fail."
  },
  {
   "property": "C08",
   "status": "proved",
   "theorems": [
    "Sink.C08_rules_well_formed"
   ],
   "note": "For all rules of all successful parses, including included files."
  },
  {
   "property": "C09",
   "status": "proved",
   "theorems": [
    "Sink.C09_round_trip",
    "Sink.C09_file_round_trip",
    "Sink.C09_not_all"
   ],
   "note": "Exact condition on with values (the text stands for itself between quotes) and on words; whole files too; C09_not_all shows why a restriction is needed (Rule.String does not quote)."
  },
  {
   "property": "C10",
   "status": "proved",
   "theorems": [
    "Sink.C10_load_iff",
    "Sink.C10_splice",
    "Sink.C10_bad_include_fails",
    "Sink.C10_trailing_fails",
    "Sink.C10_more_descriptors",
    "Sink.C10_cycle_fails"
   ],
   "note": "loadRules succeeds with rs iff the recursive expansion of includes gives rs; splicing, failure of bad includes and trailing tokens, monotonicity in free descriptors, failure of include cycles."
  },
  {
   "property": "C11",
   "status": "proved",
   "theorems": [
    "Sink.C11_base_rules",
    "Sink.C11_any_names",
    "Sink.C11_stall_rules"
   ],
   "note": "buildRules and genStallRules for every combination of options and all clean file names; needs no assumption about the file system. C11_any_names: for all other names too, the standard rules and that of -M come first."
  },
  {
   "property": "C12",
   "status": "proved",
   "theorems": [
    "Sink.C12_address_patterns",
    "Sink.C12_null_address",
    "Sink.C12_bare_name",
    "Sink.C12_full_address",
    "Sink.C12_from_host"
   ],
   "note": "matchAddress never panics and decides exactly the relation AddrMatch of Spec/Match.lean, for every library lower-casing; special cases spelled out."
  },
  {
   "property": "C13",
   "status": "proved",
   "theorems": [
    "Sink.C13_host_patterns",
    "Sink.C13_undotted_host",
    "Sink.C13_trailing_dot"
   ],
   "note": "matchHost on non-empty names and patterns decides exactly HostMatch; trailing dots of reverse DNS names do not matter."
  },
  {
   "property": "C14",
   "status": "proved",
   "theorems": [
    "Sink.C14_ip_patterns",
    "Sink.C14_families",
    "Sink.C14_families6",
    "Sink.C14_garbage",
    "Sink.C14_invalid_client_matches_everything"
   ],
   "note": "For a client address net.ParseIP accepts. Without that hypothesis everything that is not a plain address matches (C14_invalid_client_matches_everything)."
  },
  {
   "property": "C15",
   "status": "proved",
   "theorems": [
    "Sink.C15_subject_case",
    "Sink.C15_literal_case",
    "Sink.C15_file_case"
   ],
   "note": "For subjects, literal patterns of every operator, and pattern files."
  },
  {
   "property": "C16",
   "status": "partial",
   "theorems": [
    "Sink.C16_unique",
    "Sink.C16_entries_partial",
    "Sink.C16_lines_exist",
    "Sink.C16_no_empty_entry",
    "Sink.C16_last_line_lost",
    "Sink.C16_load"
   ],
   "note": "All newline-terminated lines are handled as stated; the part \"a final line without newline should also count\" is false of the code and its negation is proved (C16_last_line_lost)."
  },
  {
   "property": "C17",
   "status": "proved",
   "theorems": [
    "Sink.C17_semantics",
    "Sink.C17_contexts",
    "Sink.C17_boolean",
    "Sink.C17_parts"
   ],
   "note": "Every expression tree, in a static world with consistent caches; C17_boolean says the value of a tree is the Boolean function of the values of its operators."
  },
  {
   "property": "C18",
   "status": "proved",
   "theorems": [
    "Sink.C18_mark",
    "Sink.C18_rule_skipped",
    "Sink.C18_static"
   ],
   "note": "In any, also changing, world: a rule whose evaluation comes to consult an empty pattern source sets the miss mark, and a marked rule is skipped; C18_static ties consulting to the declarative Misses."
  },
  {
   "property": "C19",
   "status": "proved",
   "theorems": [
    "Sink.C19_once",
    "Sink.C19_snapshot"
   ],
   "note": "Any world, any history of decisions on any transaction data: at most one open per file, and the whole run equals the run in a world with constant file contents."
  },
  {
   "property": "C20",
   "status": "proved",
   "theorems": [
    "Sink.C20_sticky",
    "Sink.C20_known",
    "Sink.C20_hits"
   ],
   "note": "Any world. Failed lookups are not cached by the code, so only definite answers stick."
  },
  {
   "property": "C21",
   "status": "proved",
   "theorems": [
    "Sink.C21_only_known_data"
   ],
   "note": "Parsed rules, any world, any context; the resulting context is also unchanged apart from the fields not yet known."
  },
  {
   "property": "C22",
   "status": "proved",
   "theorems": [
    "Sink.C22_first_match"
   ],
   "note": "Static world, all parsed rule lists, all contexts reached by decisions; the only exception is the null sender deferral, spelled out in the statement. FirstMatch.unique shows the outcome is determined."
  },
  {
   "property": "C23",
   "status": "proved",
   "theorems": [
    "Sink.C23_withs",
    "Sink.C23_determined"
   ],
   "note": "Same setting as C22, for each with option separately."
  },
  {
   "property": "C24",
   "status": "proved",
   "theorems": [
    "Sink.C24_explicit_phase"
   ],
   "note": "Any world, any context; the whole context after the decision is the same apart from the rule list itself."
  },
  {
   "property": "C25",
   "status": "proved",
   "theorems": [
    "Sink.C25_null_sender",
    "Sink.C25_reply",
    "Sink.C25_reset"
   ],
   "note": "C25_null_sender: any world, any context, any rules. On the connection MAIL FROM:<> is answered positively (C25_reply) unless do-nothing detection ends the session, which needs -dncount (C25_reset, with an example)."
  },
  {
   "property": "C26",
   "status": "proved",
   "theorems": [
    "Sink.C26_sticks",
    "Sink.C26_rules",
    "Sink.C26_cleared"
   ],
   "note": "C26_sticks in any world, C26_rules states the refusal and its options by the declarative first match, C26_cleared the clearing."
  },
  {
   "property": "C27",
   "status": "proved",
   "theorems": [
    "Sink.C27_each_recipient",
    "Sink.C27_alone",
    "Sink.C27_leftover"
   ],
   "note": "C27_each_recipient in a static world; C27_leftover in any world."
  },
  {
   "property": "C28",
   "status": "partial",
   "theorems": [
    "Sink.C28_consistent",
    "Sink.C28_meaning",
    "Sink.C28_bad_partial",
    "Sink.C28_bad_differs"
   ],
   "note": "Mutual exclusion and meaning of every attribute proved. The manual's list for 'bad' differs from the code (route instead of quoted): C28_bad_partial proves what the code does, C28_bad_differs that it is not the documented list."
  },
  {
   "property": "C29",
   "status": "proved",
   "theorems": [
    "Sink.C29_consistent",
    "Sink.C29_meaning",
    "Sink.C29_unknown_client"
   ],
   "note": "The IP attributes need known client and server addresses: C29_unknown_client shows the attribute is wrong otherwise."
  },
  {
   "property": "C30",
   "status": "proved",
   "theorems": [
    "Sink.C30_consistent"
   ],
   "note": "All reverse DNS results."
  },
  {
   "property": "C31",
   "status": "proved",
   "theorems": [
    "Sink.C31_source",
    "Sink.C31_domain_like_host"
   ],
   "note": "Static world for C31_source; literal and file arguments."
  },
  {
   "property": "C32",
   "status": "proved",
   "theorems": [
    "Sink.C32_dbl",
    "Sink.C32_order",
    "Sink.C32_only_named_sources"
   ],
   "note": "C32_only_named_sources in any world: every name looked up by dbl comes from a named source."
  },
  {
   "property": "C33",
   "status": "proved",
   "theorems": [
    "Sink.C33_envelope",
    "Sink.C33_rules_see"
   ],
   "note": "Any configuration, rules, world, client and interleaving with other sessions (shared tables arbitrary before every step): the session record is the fold of the accepted commands, and every decision sees the greeting, sender and recipients so recorded."
  },
  {
   "property": "C34",
   "status": "proved",
   "theorems": [
    "Sink.C34_savedir",
    "Sink.C34_last"
   ],
   "note": "Any run of a session: the directory used is the one set by the most recent decision with a savedir, else -d."
  },
  {
   "property": "C35",
   "status": "proved",
   "theorems": [
    "Sink.C35_M"
   ],
   "note": "Any rule files, any client, and whatever file names are given to the other options: C11_any_names shows that nothing pasted into the generated text can get before the rule of -M."
  },
  {
   "property": "C36",
   "status": "proved",
   "theorems": [
    "Sink.C36_toaccept",
    "Sink.C36_fromreject"
   ],
   "note": "Any rule files, any client. A connection reads each pattern file once; the theorems speak about the contents at that time. File names given to -fromreject, -toaccept and -heloreject must not contain blanks, commas, parentheses, semicolons or newlines: the code pastes them into rule text."
  },
  {
   "property": "C37",
   "status": "proved",
   "theorems": [
    "Sink.C37_broken_rules",
    "Sink.C37_start"
   ],
   "note": "Any run of a session whose rule files cannot be loaded: every refusal is temporary, nothing is accepted, and the client is not counted."
  },
  {
   "property": "C38",
   "status": "proved",
   "theorems": [
    "Sink.C38_stalled_iff",
    "Sink.C38_stalled_effect",
    "Sink.C38_session",
    "Sink.C38_useless"
   ],
   "note": "Any run of the server with any number of interleaved connections. Stalling also needs -smtplog, as the comment in the code says."
  },
  {
   "property": "C39",
   "status": "partial",
   "theorems": [
    "Sink.C39_not_always",
    "Sink.C39_last_decision_partial",
    "Sink.C39_exactly_partial"
   ],
   "note": "False as stated: make-yakker is forgotten when a later decision is made without it (C39_not_always). The partial theorem covers the sessions where no decision follows the marking one; C39_exactly_partial shows that these are exactly the sessions whose client is marked: the record is set to the limit at the end iff the last decision said make-yakker."
  },
  {
   "property": "C40",
   "status": "partial",
   "theorems": [
    "Sink.C40_reports_partial",
    "Sink.C40_once_partial",
    "Sink.C40_not_always"
   ],
   "note": "False as stated: an abandoned transaction (MAIL FROM after MAIL FROM) that reaches the limit is never reported (C40_not_always). The partial theorems say exactly when a report is made, and that none is made twice in a row of useless sessions."
  },
  {
   "property": "C41",
   "status": "proved",
   "theorems": [
    "Sink.C41_offered",
    "Sink.C41_rules"
   ],
   "note": "Any run of the server with any number of interleaved connections; the later effect of rules on TLS is C41_rules."
  },
  {
   "property": "C42",
   "status": "partial",
   "theorems": [
    "Sink.C42_msg_partial",
    "Sink.C42_full_partial",
    "Sink.C42_shared",
    "Sink.C42_early",
    "Sink.C42_stored_partial",
    "Sink.C42_failure",
    "Sink.C42_all_partial",
    "Sink.C42_not_always",
    "Sink.C42_retry"
   ],
   "note": "false as stated, see C42_not_always (a failed write is only reported) C42_retry (a file already there counts as stored) and C42_early (even if nothing has been written to it yet); the partial theorems say what holds: C42_all_partial, C42_full_partial and C42_msg_partial what the file of an accepted message holds with each kind of name"
  },
  {
   "property": "C43",
   "status": "proved",
   "theorems": [
    "Sink.C43_message",
    "Sink.C43_initial",
    "Sink.C43_closed"
   ],
   "note": "in all interleavings of all connections, with all storage failures; a crash is a run that stops anywhere, and C43_initial covers the run after it, whatever files it finds"
  },
  {
   "property": "C44",
   "status": "proved",
   "theorems": [
    "Sink.C44_msg",
    "Sink.C44_full",
    "Sink.C44_all",
    "Sink.C44_full_hash",
    "Sink.C44_distinct"
   ],
   "note": "C44_all and C44_full_hash say which data is hashed; C44_distinct says that the hashed data differs whenever sender, recipients or message differ"
  },
  {
   "property": "C45",
   "status": "proved",
   "theorems": [
    "Sink.C45_read_back",
    "Sink.C45_certificate"
   ],
   "note": "C45_certificate shows the condition on certificate names to be needed"
  },
  {
   "property": "C46",
   "status": "proved",
   "theorems": [
    "Sink.C46_log_line",
    "Sink.C46_count"
   ],
   "note": "C46_log_line the line, C46_count the number of lines"
  },
  {
   "property": "C47",
   "status": "partial",
   "theorems": [
    "Sink.C47_partial",
    "Sink.C47_server_partial",
    "Sink.C47_empty_helo",
    "Sink.C47_empty_pattern",
    "Sink.C47_note_without_log",
    "Sink.C47_sbl_ipv6",
    "Sink.C47_empty_name",
    "Sink.C47_empty_client_name"
   ],
   "note": "False in general: the theorems C47_empty_helo, C47_empty_pattern, C47_note_without_log, C47_sbl_ipv6, C47_empty_name and C47_empty_client_name are crashes of the whole server. Proved (C47_partial, C47_server_partial) under the conditions in Prudent, which exclude exactly these cases: with the standard rules, no empty patterns, a log if notes are used and no empty reverse DNS names no event sequence panics. Panics inside the smtpd library, the Go runtime and deliberate die() at start-up are not modelled."
  },
  {
   "property": "C48",
   "status": "partial",
   "theorems": [
    "Sink.C48_first_partial",
    "Sink.C48_unparsable",
    "Sink.C48_settings_partial",
    "Sink.C48_life_partial",
    "Sink.C48_no_certificates"
   ],
   "note": "Proved for local addresses that are plain IP addresses: first covering line, settings of the connection for its whole life, warning exactly for a broken file, no TLS without certificates. Missing: a local address with an IPv6 zone does not parse and then matches the first LOCAL that is not a plain IP (C48_unparsable)."
  },
  {
   "property": "C49",
   "status": "partial",
   "theorems": [
    "Sink.C49_strict_partial",
    "Sink.C49_unreadable",
    "Sink.C49_entries",
    "Sink.C49_last_line_lost",
    "Sink.C49_not_all"
   ],
   "note": "An exact characterisation of accepted files in terms of their newline-terminated lines. Missing: an unterminated last line is dropped without any check (C49_last_line_lost, C49_not_all)."
  },
  {
   "property": "C50",
   "status": "proved",
   "theorems": [
    "Sink.C50_classification",
    "Sink.C50_no_names",
    "Sink.C50_invalid_client"
   ],
   "note": "World held fixed during the lookup."
  },
  {
   "property": "C51",
   "status": "proved",
   "theorems": [
    "Sink.C51_valid_iff",
    "Sink.C51_unknown_iff",
    "Sink.C51_bad_iff",
    "Sink.C51_bogus_mx",
    "Sink.C51_order_irrelevant"
   ],
   "note": "Complete characterisation of valid/unknown/bad verdicts in a fixed world, order independence; bogus MX in any world."
  },
  {
   "property": "C52",
   "status": "proved",
   "theorems": [
    "Sink.C52_deliverable_iff",
    "Sink.C52_public_v4",
    "Sink.C52_public_v6"
   ],
   "note": "checkIP reports good iff there is an address and all are public; public spelled out numerically for IPv4 and IPv6."
  },
  {
   "property": "C53",
   "status": "partial",
   "theorems": [
    "Sink.C53_partial",
    "Sink.C53_no_spare",
    "Sink.C53_not_all"
   ],
   "note": "False in general (C53_not_all): append may write into spare capacity of the array of the base rules, which all connections share, e.g. with the three standard rules. Proved when no two connections load different rules into those places, and unconditionally when there are none (C53_no_spare)."
  },
  {
   "property": "C54",
   "status": "proved",
   "theorems": [
    "Sink.C54_atomic",
    "Sink.C54_exclusive",
    "Sink.C54_count",
    "Sink.C54_adds",
    "Sink.C54_steps"
   ],
   "note": "Instruction-level interleavings of any number of goroutines: every execution has a linear order of atomic effects consistent with calls and returns (C54_atomic), which give the counts (C54_count, C54_adds); C54_steps ties the effects to the one-step operations the session model uses. The scheduler, the Go memory model below the mutex and time going backwards are not modelled."
  },
  {
   "property": "C55",
   "status": "proved",
   "theorems": [
    "Sink.C55_finished",
    "Sink.C55_no_deadlock",
    "Sink.C55_ends",
    "Sink.C55_stream"
   ],
   "note": "The parser is any deterministic receiver (a predicate on the items received so far saying whether it reads on), so the result covers every point at which parsing can stop; every schedule of the two goroutines."
  },
  {
   "property": "C56",
   "status": "proved",
   "theorems": [
    "Sink.C56_printed",
    "Sink.C56_flush",
    "Sink.C56_order",
    "Sink.C56_progress"
   ],
   "note": "Small-step model of the callers, the unbuffered channel and the backend; all interleavings. C56_flush is what main relies on before it exits."
  },
  {
   "property": "C57",
   "status": "proved",
   "theorems": [
    "Sink.C57_exact",
    "Sink.C57_total",
    "Sink.C57_exclusive"
   ],
   "note": "Instruction-level interleavings; counters are uint64 and wrap, as in the code."
  },
  {
   "property": "C58",
   "status": "proved",
   "theorems": [
    "Sink.C58_once",
    "Sink.C58_file",
    "Sink.C58_parts"
   ],
   "note": "bufio.Writer is modelled from memory of the Go library, whose source was not at hand; the file either writes everything or reports an error. Note that smtpLogger.Write returns more than len(b), which io.Writer does not allow."
  },
  {
   "property": "C59",
   "status": "proved",
   "theorems": [
    "Sink.C59_starts",
    "Sink.C59_refused",
    "Sink.C59_settings",
    "Sink.C59_safe"
   ],
   "note": "Exact characterisation of when main starts to accept connections, the settings it then uses, and the consequence for whole connection lives (C59_safe). flag.Parse is not modelled."
  },
  {
   "property": "C60",
   "status": "proved",
   "theorems": [
    "Sink.C60_minphase"
   ],
   "note": "Any run of a session, in terms of the replies given to the events of the client."
  },
  {
   "property": "C61",
   "status": "proved",
   "theorems": [
    "Sink.C61_proto"
   ],
   "note": ""
  },
  {
   "property": "C62",
   "status": "proved",
   "theorems": [
    "Sink.C62_comma"
   ],
   "note": ""
  },
  {
   "property": "C63",
   "status": "proved",
   "theorems": [
    "Sink.C63_step",
    "Sink.C63_total",
    "Sink.C63_in_turn",
    "Sink.C63_soon",
    "Sink.C63_end"
   ],
   "note": "C63_step per step, C63_total for the life of a connection (at every prefix the answers given are the requests made, less one while a message is dealt with), C63_in_turn, C63_soon (five steps, whatever the file system does) and C63_end."
  },
  {
   "property": "C64",
   "status": "proved",
   "theorems": [
    "Sink.C64_decision",
    "Sink.C64_connect",
    "Sink.C64_lost",
    "Sink.C64_id"
   ],
   "note": "C64_decision gives the whole answer as a function of the decision, the message option, the ID and the recipients; C64_connect, C64_lost and C64_id for connecting, lost messages and the ID."
  },
  {
   "property": "C65",
   "status": "proved",
   "theorems": [
    "Sink.C65_step",
    "Sink.C65_start",
    "Sink.C65_server",
    "Sink.C65_laws"
   ],
   "note": "C65_step says what makes each counter go up in a step, in terms of the history of the session; C65_start for the start of a session; C65_server sums up over all interleavings; C65_laws relates the numbers. The reports about do-nothing clients (yakads, yakforces) are in C40."
  },
  {
   "property": "C66",
   "status": "proved",
   "theorems": [
    "Sink.C66_step",
    "Sink.C66_dnlog",
    "Sink.C66_off",
    "Sink.C66_counts",
    "Sink.C66_hits",
    "Sink.C66_start"
   ],
   "note": "C66_step gives the exact lines and counts per step in terms of the history (hits to the left, SBL records to the right); C66_counts the statistics over a whole connection; C66_hits ties hits and errors to the decision and their order; C66_dnlog what is written to -dnlog; C66_off and C66_start the rest."
  },
  {
   "property": "C67",
   "status": "proved",
   "theorems": [
    "Sink.C67_heloreject"
   ],
   "note": "The name of the file must be a clean name (no white space, quotes or separators), as for C36. A rule at MAIL FROM does not apply to the null sender in the code, so there the recipients are refused instead."
  },
  {
   "property": "C68",
   "status": "proved",
   "theorems": [
    "Sink.C68_std"
   ],
   "note": "Refused means rejected or, for stalled clients, deferred. Malformed is written without the model (Spec.Sem)."
  },
  {
   "property": "C69",
   "status": "proved",
   "theorems": [
    "Sink.C69_numbers",
    "Sink.C69_all",
    "Sink.C69_counter",
    "Sink.C69_served"
   ],
   "note": "Small-step model of the listeners, the unbuffered channel and the loop in main. C69_served is possibility under any schedule so far (nothing but main has to move), not fairness of the Go scheduler."
  },
  {
   "property": "C70",
   "status": "proved",
   "theorems": [
    "Sink.C70_shown",
    "Sink.C70_present",
    "Sink.C70_connection",
    "Sink.C70_off",
    "Sink.C70_not_latest"
   ],
   "note": "expvar operations are atomic, as the package documents. C70_not_latest: when calls overlap the time shown need not be the latest one even after all have finished (a get-then-create race), which is why C70_shown is about calls that do not overlap."
  },
  {
   "property": "C71",
   "status": "proved",
   "theorems": [
    "Sink.C71_isolated",
    "Sink.C71_all"
   ],
   "note": "A two-run property: C71_isolated builds the run without the others. The global statistics counters are not part of what clients see. C71_all discharges the condition on file names for -save-hash all when connections have different log prefixes and the hash does not collide."
  },
  {
   "property": "C72",
   "status": "proved",
   "theorems": [
    "Sink.C72_rules",
    "Sink.C72_priority",
    "Sink.C72_otherwise"
   ],
   "note": "C72_rules for the rules of a connection; C72_priority and C72_otherwise for Decide on the concatenation of two rule lists."
  },
  {
   "property": "C73",
   "status": "proved",
   "theorems": [
    "Sink.C73_read_meta"
   ],
   "note": "The reader (Spec/Meta.lean) knows the format only. Certificate names and server names with quotes or newlines would be ambiguous (C45_certificate shows the newline case), so they are excluded. What the DNS lists contain is C50."
  },
  {
   "property": "C74",
   "status": "proved",
   "theorems": [
    "Sink.C74_setup_once",
    "Sink.C74_lasting"
   ],
   "note": "What is offered at the setup is C41; here what becomes of it."
  },
  {
   "property": "C75",
   "status": "proved",
   "theorems": [
    "Sink.C75_decision",
    "Sink.C75_step",
    "Sink.C75_life"
   ],
   "note": "Upper bound on what is asked: C75_decision, C75_step, C75_life. That pattern files are read at most once is C19_once, that known DNS answers are not asked for again is C20_sticky."
  },
  {
   "property": "C76",
   "status": "proved",
   "theorems": [
    "Sink.C76_answers",
    "Sink.C76_connect",
    "Sink.C76_determined"
   ],
   "note": "Spec/Answers.lean is the specification: what has been said, first match, delayed refusal, no context. World fixed (World.Static); for changing worlds see C19_snapshot and C20."
  },
  {
   "property": "C77",
   "status": "proved",
   "theorems": [
    "Sink.C77_constant",
    "Sink.C77_trim",
    "Sink.C77_answers",
    "Sink.C77_welcome",
    "Sink.C77_unwelcome"
   ],
   "note": "Stated for rules in the sense of C76 (C77_trim for single rulings, C77_answers for connections)."
  },
  {
   "property": "C78",
   "status": "proved",
   "theorems": [
    "Sink.C78_read_log",
    "Sink.C78_ambiguous"
   ],
   "note": "Assumes that addresses, hashes and the like made by the library are single words (WordEnv), the time has no \"[\" and the ID no \"]\". C78_ambiguous: the condition that addresses contain no \">\" is needed."
  },
  {
   "property": "C79",
   "status": "proved",
   "theorems": [
    "Sink.C79_error_place",
    "Sink.C79_include_error",
    "Sink.C79_file_error"
   ],
   "note": "The fault can be before the place named, but in the same statement (example: a rule without operation is reported at its end)."
  },
  {
   "property": "C80",
   "status": "proved",
   "theorems": [
    "Sink.C80_rules",
    "Sink.C80_conn_error",
    "Sink.C80_conn",
    "Sink.C80_steps"
   ],
   "note": "C80_rules (warning about rules files), C80_conn and C80_conn_error (iff characterisation of the complaint about a connection parameter file), C80_steps (nothing later). What the library says about an unreadable file or a bad key pair is an oracle text; a read error in the middle of a connection parameter file is reported as such although the program may report a wrong line before it first."
  },
  {
   "property": "C81",
   "status": "proved",
   "theorems": [
    "Sink.C81_never_stalled",
    "Sink.C81_record",
    "Sink.C81_never_reported"
   ],
   "note": "A limit of exactly 0. An example shows that a negative -dncount, which is not refused at the start, is different."
  },
  {
   "property": "C82",
   "status": "proved",
   "theorems": [
    "Sink.C82_consistent",
    "Sink.C82_total",
    "Sink.C82_server"
   ],
   "note": "C82_consistent and C82_total are about single accesses under the mutex, C82_server about whole operations. Unbounded integers."
  },
  {
   "property": "C83",
   "status": "proved",
   "theorems": [
    "Sink.C83_page",
    "Sink.C83_all",
    "Sink.C83_once"
   ],
   "note": "Meaning of the counters as in C65. accepted/messages counts messages received, also those rejected afterwards (example). connections, the address tables and the times are in C69, C82 and C70."
  },
  {
   "property": "C84",
   "status": "proved",
   "theorems": [
    "Sink.C84_pattern_file",
    "Sink.C84_connection_file",
    "Sink.C84_crlf",
    "Sink.C84_rules_differ"
   ],
   "note": "C84_rules_differ: rules files are different (the carriage return becomes part of a word). space_table checks the table of white space against code points."
  },
  {
   "property": "C85",
   "status": "proved",
   "theorems": [
    "Sink.C85_exchange",
    "Sink.C85_exchange_connect",
    "Sink.C85_in_not",
    "Sink.C85_in_or",
    "Sink.C85_in_and",
    "Sink.C85_not_not",
    "Sink.C85_not_or",
    "Sink.C85_not_and",
    "Sink.C85_or_assoc",
    "Sink.C85_and_parens",
    "Sink.C85_or_twice",
    "Sink.C85_and_twice",
    "Sink.C85_distribute",
    "Sink.C85_source",
    "Sink.C85_attributes",
    "Sink.C85_dns_exists",
    "Sink.C85_dns_good",
    "Sink.C85_or_comm",
    "Sink.C85_and_order",
    "Sink.C85_in_rule",
    "Sink.C85_clauses_or",
    "Sink.C85_or_rules",
    "Sink.C85_clauses_rules",
    "Sink.C85_covered",
    "Sink.C85_twice",
    "Sink.C85_narrower",
    "Sink.C85_never",
    "Sink.C85_two_addresses",
    "Sink.C85_order",
    "Sink.C85_answers",
    "Sink.C85_file_order",
    "Sink.C85_phases_differ",
    "Sink.C85_set_with_differs"
   ],
   "note": "Equivalence is over all worlds, facts and phases, from any options set before, so it is a congruence (C85_exchange). C85_or_comm and C85_and_order exclude pattern files because of C85_file_order; C85_source is for ASCII patterns since lower-casing of other text is not modelled."
  },
  {
   "property": "C86",
   "status": "proved",
   "theorems": [
    "Sink.C86_answers",
    "Sink.C86_addresses_needed"
   ],
   "note": "C86_answers: for any run of a connection in a world whose files, MX, PTR and TXT answers change arbitrarily with time, there is one static world that agrees with every answer the connection got when it asked (Spec.Snapshot), and all replies and the connect decision are those of C76 (Ruling, FirstMatch) in that world. Assumed: A/AAAA answers of names do not change (two domains may share a mail exchanger, which is then asked for twice; a blocklist name without an answer is asked for again in the next phase, rules.go:81-95). C86_addresses_needed: without that supposition the claim is false; a connection in which the address of a shared mail exchanger goes away answers like no single state of the DNS (witness session run through the model)."
  },
  {
   "property": "C87",
   "status": "proved",
   "theorems": [
    "Sink.C87_ruling",
    "Sink.C87_accept",
    "Sink.C87_refuse",
    "Sink.C87_refused",
    "Sink.C87_set",
    "Sink.C87_connect"
   ],
   "note": "C87_accept, C87_refuse, C87_refused, C87_set are about Ruling, which by C76_answers and C86_answers gives every reply of every connection; C87_ruling says there is a ruling on every command, C87_connect is the decision on connecting. When accept rules lift the refusal of a null sender, a later command may get another refusal of its own."
  },
  {
   "property": "C88",
   "status": "proved",
   "theorems": [
    "Sink.C88_ruling",
    "Sink.C88_answers",
    "Sink.C88_order"
   ],
   "note": "C88_ruling for the rulings (which by C76 and C86 give every reply), C88_answers for the words of the replies on one or two connections of a client, C88_order for permuted and repeated recipients; an example shows that with different options per clause the order does matter to the options. Exception: the drop after too many RSETs."
  },
  {
   "property": "C89",
   "status": "proved",
   "theorems": [
    "Sink.C89_rule",
    "Sink.C89_addresses",
    "Sink.C89_blocks",
    "Sink.C89_means",
    "Sink.C89_client",
    "Sink.C89_whole_numbers",
    "Sink.C89_allowed",
    "Sink.C89_zeros",
    "Sink.C89_private"
   ],
   "note": "C89_addresses and C89_blocks are exact for text without a colon (IPv6 text stays an oracle). C89_client is what matchIp does for such a client; C89_means is the same for LOCAL in -conncfg, which C48 states with IpMatch; C89_whole_numbers spells out /0, /8, /16, /24, /32. C89_allowed ties it to the rule grammar of C06. C89_zeros is about the comment at rules.go:372-376, which is no longer true from Go 1.17 on. C89_private checks the three constants that C52 uses. C89_rule (Props/IpRule) shows that every such text can be written in a rule. The parsers are those of package net, transcribed from memory of its source, as the sandbox has no Go."
  },
  {
   "property": "C90",
   "status": "proved",
   "theorems": [
    "Sink.C90_split",
    "Sink.C90_tcp",
    "Sink.C90_ipv4",
    "Sink.C90_block"
   ],
   "note": "Exact characterisation of SplitHostPort; the host part of any TCP address; and what `reject ip PATTERN` does to whole sessions of IPv4 clients over TCP. The text of an IPv6 address is any text without brackets."
  },
  {
   "property": "C91",
   "status": "partial",
   "theorems": [
    "Sink.C91_counted",
    "Sink.C91_partial",
    "Sink.C91_not_always"
   ],
   "note": "When a connection is counted is exact (C91_counted). That it could have used TLS is false with -conncfg (C91_not_always): failures on an address with certificates count against a connection to one without. C91_partial proves it without -conncfg."
  },
  {
   "property": "C92",
   "status": "proved",
   "theorems": [
    "Sink.C92_complete",
    "Sink.C92_kept",
    "Sink.C92_passed",
    "Sink.C92_refused",
    "Sink.C92_putoff",
    "Sink.C92_stalled",
    "Sink.C92_broken",
    "Sink.C92_closed",
    "Sink.C92_options",
    "Sink.C92_std",
    "Sink.C92_other_name"
   ],
   "note": "The order of commands is the hypothesis Orderly, what smtpd guarantees. C92_complete finds the accepted commands, C92_passed says that the rules passed each, C92_kept that only messages are stored; C92_stalled, C92_broken, C92_closed, C92_options, C92_std draw the conclusions. An example shows that Orderly is needed."
  },
  {
   "property": "C93",
   "status": "proved",
   "theorems": [
    "Sink.C93_origin",
    "Sink.C93_passed",
    "Sink.C93_welcome",
    "Sink.C93_unchanged",
    "Sink.C93_read"
   ],
   "note": "C93_origin needs no assumption about the order of commands; C93_passed, C93_welcome, C93_read and C93_unchanged have the hypothesis Orderly for each connection, an assumption about smtpd as in C92. Contents are a prefix of the record because writing or closing may fail (C42)."
  },
  {
   "property": "C94",
   "status": "proved",
   "theorems": [
    "Sink.C94_slow",
    "Sink.C94_logged",
    "Sink.C94_name",
    "Sink.C94_tls"
   ],
   "note": "What the library then does with the delay and the configuration is outside the model. C94_name is for local addresses that are plain IP addresses, as C48."
  },
  {
   "property": "C95",
   "status": "proved",
   "theorems": [
    "Sink.C95_messages",
    "Sink.C95_reached",
    "Sink.C95_reached_once",
    "Sink.C95_start"
   ],
   "note": "Which calls are made; what becomes of them when several connections make them at once is C70."
  },
  {
   "property": "C96",
   "status": "proved",
   "theorems": [
    "Sink.C96_reads",
    "Sink.C96_settings",
    "Sink.C96_M",
    "Sink.C96_no_directory",
    "Sink.C96_S",
    "Sink.C96_stat",
    "Sink.C96_same"
   ],
   "note": "flag.Parse is modelled from memory of package flag; strconv.ParseInt and time.ParseDuration are parameters."
  },
  {
   "property": "C97",
   "status": "proved",
   "theorems": [
    "Sink.C97_answers",
    "Sink.C97_addresses"
   ],
   "note": "From the text of the file to the answers. Hypotheses: no other rules (-nostdrules, no options), the client is not stalled as a do-nothing client, and addresses (A, AAAA) of names stay; the statement itself looks nothing up."
  },
  {
   "property": "C98",
   "status": "proved",
   "theorems": [
    "Sink.C98_message",
    "Sink.C98_recipient",
    "Sink.C98_sender",
    "Sink.C98_greeting"
   ],
   "note": "The manual says that with reject and stall rules only a refusal later than the phase a rule normally is checked in cannot come up. Exceptions found: stall rules about the client (nothing happens when it connects, so the greeting is refused) and null senders; both are in the statement."
  },
  {
   "property": "C99",
   "status": "proved",
   "theorems": [
    "Sink.C99_distinct",
    "Sink.C99_apart",
    "Sink.C99_numbers",
    "Sink.C99_own"
   ],
   "note": "What the smtpd library writes to the log (commands and replies) is not in the repository; that its records are lines not beginning with a digit is a hypothesis."
  },
  {
   "property": "C100",
   "status": "proved",
   "theorems": [
    "Sink.C100_last",
    "Sink.C100_sessions",
    "Sink.C100_connections",
    "Sink.C100_launch"
   ],
   "note": "One clock for listeners, sessions and recordings. The theorem about times has the condition that nobody is recording; C70_not_latest shows that without exclusion of overlaps the latest time need not be the one shown."
  },
  {
   "property": "C101",
   "status": "proved",
   "theorems": [
    "Sink.C101_accept",
    "Sink.C101_accept_helo",
    "Sink.C101_liar",
    "Sink.C101_dnsbl",
    "Sink.C101_data",
    "Sink.C101_not",
    "Sink.C101_message",
    "Sink.C101_set",
    "Sink.C101_set_compact"
   ],
   "note": "Props/Manual. The rules of the command line must be empty (-nostdrules, no lists), so that the example comes first. DNS and pattern files do not change (World.Static). AsIf refers to the rulings of C76 for the other rules; C101_liar and C101_dnsbl contradict the manual."
  },
  {
   "property": "C102",
   "status": "proved",
   "theorems": [
    "Sink.C102_start",
    "Sink.C102_rules",
    "Sink.C102_plain",
    "Sink.C102_ends",
    "Sink.C102_careless"
   ],
   "note": "From the command line to every step of every connection. C102_careless is a program, started with -nostdrules and a rule about the EHLO name, that its first client can end. Not covered: panics inside smtpd or the Go runtime, and running out of memory."
  },
  {
   "property": "C103",
   "status": "proved",
   "theorems": [
    "Sink.C103_refused",
    "Sink.C103_shut",
    "Sink.C103_escape"
   ],
   "note": "C103_escape is the disagreement with the manual (as C39). With rules in files only the first line of the first file is looked at; rules made from options come before it and are shown to say nothing to EHLO with a name."
  },
  {
   "property": "C104",
   "status": "proved",
   "theorems": [
    "Sink.C104_result",
    "Sink.C104_kept",
    "Sink.C104_started",
    "Sink.C104_refused",
    "Sink.C104_testfile_lost"
   ],
   "note": "Files are names with contents; links and other programs are not modelled (a symbolic link .wecanmake would have its target emptied). C104_testfile_lost shows the exceptions: a file of that name is lost even by a failing start, and a log file of that name is removed while in use."
  },
  {
   "property": "C105",
   "status": "proved",
   "theorems": [
    "Sink.C105_one_meaning",
    "Sink.C105_allowed",
    "Sink.C105_rule",
    "Sink.C105_block",
    "Sink.C105_link_local",
    "Sink.C105_addresses",
    "Sink.C105_blocks",
    "Sink.C105_means",
    "Sink.C105_text",
    "Sink.C105_tcp",
    "Sink.C105_client",
    "Sink.C105_zone"
   ],
   "note": "Proved for the library functions as remembered, old and new versions; sessions for options without generated rules and a world that does not change."
  },
  {
   "property": "C106",
   "status": "proved",
   "theorems": [
    "Sink.C106_forms",
    "Sink.C106_whose",
    "Sink.C106_other_spelling",
    "Sink.C106_rfc",
    "Sink.C106_zone",
    "Sink.C106_zone_names",
    "Sink.C106_dotted",
    "Sink.C106_private",
    "Sink.C106_written"
   ],
   "note": "for the parsers of Model/IpText6; the manual is wrong about other spellings and RFC 5321 literals (theorems C106_other_spelling, C106_rfc)"
  },
  {
   "property": "C107",
   "status": "proved",
   "theorems": [
    "Sink.C107_complaint",
    "Sink.C107_or"
   ],
   "note": "The texts of the messages and what they claim are in Spec/Complaint.lean. Where the lexer reports an error in place of a word the message is the one of the lexer. The place is that of C79."
  },
  {
   "property": "C108",
   "status": "proved",
   "theorems": [
    "Sink.C108_local",
    "Sink.C108_port",
    "Sink.C108_spelling",
    "Sink.C108_nonsense",
    "Sink.C108_settings",
    "Sink.C108_zone",
    "Sink.C108_determined",
    "Sink.C108_other_spelling"
   ],
   "note": "For all connections over TCP: LOCAL as text, with the parsers of net.ParseIP and net.ParseCIDR as modelled for C105 and TCPAddr.String as for C90. C108_settings for addresses without a zone, C108_zone for those with one; together they are about every local address of a TCP connection, except for zones (names of network interfaces) with brackets in them."
  },
  {
   "property": "C109",
   "status": "proved",
   "theorems": [
    "Sink.C109_answers",
    "Sink.C109_connect",
    "Sink.C109_recipient",
    "Sink.C109_message",
    "Sink.C109_open",
    "Sink.C109_changing",
    "Sink.C109_program"
   ],
   "note": "C109_answers: for every command of a connection, refused iff Unwanted (a predicate on options, file texts, and what the client has said), exact replies in both cases. C109_connect: every client is let in. C109_recipient and C109_message: within a transaction only the recipient counts, and then only -M. C109_open: nothing is refused without options. For clients that are not stalled (those get deferrals, C38) and a static world, as for C76. C109_changing: the same while files and DNS change, in one snapshot of the world (as C86). C109_program: from the arguments of the program to the answers in each of its concurrent sessions. Examples: all options at once."
  },
  {
   "property": "C110",
   "status": "proved",
   "theorems": [
    "Sink.C110_count",
    "Sink.C110_duration",
    "Sink.C110_allows",
    "Sink.C110_server",
    "Sink.C110_unit",
    "Sink.C110_usual"
   ],
   "note": "C110_count and C110_duration: strconv.ParseInt(s, 0, 64) and time.ParseDuration, modelled from memory of the library, accept exactly Spec.Count and Spec.Duration with the values given there; C110_allows: these are the values with which flag.Parse goes on; C110_server: settings of a started server from any command line (with C96, C59); C110_usual, C110_unit: usual decimal numbers, numbers without unit. The floating point value of digits after a point is a parameter (any function)."
  },
  {
   "property": "C111",
   "status": "proved",
   "theorems": [
    "Sink.C111_listed",
    "Sink.C111_unlisted",
    "Sink.C111_name",
    "Sink.C111_ipv4",
    "Sink.C111_v6",
    "Sink.C111_log"
   ],
   "note": "C111_listed, C111_unlisted: the answers; C111_name, C111_ipv4, C111_v6: which name is asked; C111_log: the log. Zones are plain words (no quotes, no keyword, not like a file name) with a dot; quoted zones are not treated. The supposition is that address lookups of names do not change during the connection (rules.go:81-95 remembers positive and empty answers but not failures)."
  },
  {
   "property": "C112",
   "status": "proved",
   "theorems": [
    "Sink.C112_connect",
    "Sink.C112_answers"
   ],
   "note": "C112_answers: the answer to every command; C112_connect: dropping. From the text of the file, for a world that does not change (C76)."
  },
  {
   "property": "C113",
   "status": "proved",
   "theorems": [
    "Sink.C113_joined",
    "Sink.C113_files",
    "Sink.C113_conditions_needed"
   ],
   "note": "C113_joined: parsing a joined text, for any loader of included files; C113_files: all connections (Life) of the two configurations are the same; C113_conditions_needed: a text for each condition. Steady files are needed only for the connection part, where included files are counted by position."
  },
  {
   "property": "C114",
   "status": "proved",
   "theorems": [
    "Sink.C114_connect",
    "Sink.C114_answers"
   ],
   "note": "From the text of the file to the answers on the wire. `Looks` says outright what each of the 25 words means; it uses the small specs of addresses, greetings and domains of C28, C30 and C31 only. `to-has` and `tls` lines are left out."
  },
  {
   "property": "C115",
   "status": "proved",
   "theorems": [
    "Sink.C115_still",
    "Sink.C115_transfer",
    "Sink.C115_message",
    "Sink.C115_options",
    "Sink.C115_passed"
   ],
   "note": "The steps are the same in both worlds, including states and traces. What has to stay is listed in Steadfast; C86_addresses_needed shows why addresses have to."
  },
  {
   "property": "C116",
   "status": "proved",
   "theorems": [
    "Sink.C116_form",
    "Sink.C116_unique",
    "Sink.C116_number",
    "Sink.C116_any_order"
   ],
   "note": "The table is finite and checked as a whole; the statements are about every cipher number."
  },
  {
   "property": "C117",
   "status": "proved",
   "theorems": [
    "Sink.C117_inlined",
    "Sink.C117_included",
    "Sink.C117_files",
    "Sink.C117_conditions_needed"
   ],
   "note": "C117_inlined is include to text, C117_included is text to include, C117_files is for connections. Files do not change while they are read; the included file and the text before the line are made of complete lines. C117_conditions_needed shows that each condition is needed."
  },
  {
   "property": "C118",
   "status": "proved",
   "theorems": [
    "Sink.C118_files",
    "Sink.C118_mx",
    "Sink.C118_names",
    "Sink.C118_again"
   ],
   "note": "C118_files, C118_mx, C118_names are upper bounds for whole connections in any world; C118_again shows that there is no such bound for DNS blocklists."
  },
  {
   "property": "C119",
   "status": "proved",
   "theorems": [
    "Sink.C119_made_once",
    "Sink.C119_made_for",
    "Sink.C119_full",
    "Sink.C119_msg"
   ],
   "note": "Files are counted by the things that happen to a server: `Makes p e` says that there was no file p before e and there is one after. The condition that the addresses of clients are not empty holds for every TCP connection."
  },
  {
   "property": "C120",
   "status": "proved",
   "theorems": [
    "Sink.C120_records",
    "Sink.C120_files",
    "Sink.C120_only",
    "Sink.C120_copies",
    "Sink.C120_kept",
    "Sink.C120_same_second"
   ],
   "note": "The strongest form of C42 for the default kind of names: C120_kept has no exception for other connections any more, only for failed calls, files from before and hash collisions."
  },
  {
   "property": "C121",
   "status": "proved",
   "theorems": [
    "Sink.C121_log",
    "Sink.C121_recover"
   ],
   "note": "A list equality, so a line too many, too few or in another order is excluded too. Writing to the log is taken to succeed, as in C46."
  },
  {
   "property": "C122",
   "status": "proved",
   "theorems": [
    "Sink.C122_data",
    "Sink.C122_or",
    "Sink.C122_two",
    "Sink.C122_difference"
   ],
   "note": "Proved for any lists of address words in place of `bad`, any pattern in place of jim@example.com and any rules in the further files; that each line gives the rule meant is proved from its text."
  },
  {
   "property": "C123",
   "status": "proved",
   "theorems": [
    "Sink.C123_options",
    "Sink.C123_printed"
   ],
   "note": "C123_options needs that rules files stay as they are while they are read; C123_printed does not. Rules with quoted arguments or values that contain quotes do not survive printing (C09_not_all), so they are excluded."
  },
  {
   "property": "C124",
   "status": "proved",
   "theorems": [
    "Sink.C124_section",
    "Sink.C124_same_sections",
    "Sink.C124_sorted",
    "Sink.C124_sorted_connect",
    "Sink.C124_server"
   ],
   "note": "External lookups are not compared: sorted rules may be evaluated in another order only across phases, so within a decision the order is the same."
  }
 ]
}